import Verif.Lemmas.BiasCorr

/-!
# C47: bias correction applies the mean error
-/

set_option linter.unusedSectionVars false

namespace Brevitas.Props

open Spec

variable {K : Type*} [Field K] {N : Type*} [DecidableEq N]

/-- `compute_mean` is the mean over everything that belongs to a channel. -/
theorem C47_compute_mean (t : Tensor K) (hw : t.WF) (d : ℕ) (hd : d < t.shape.length) (hpos : 0 < t.shape.prod) :
    (computeMean t d).length = t.shape.getD d 0 ∧
      ∀ c < t.shape.getD d 0, (computeMean t d).getD c 0 = channelMean t.shape t.data d c :=
  ⟨(computeMean_spec t hw d hd hpos).1, fun c hc => ((computeMean_spec t hw d hd hpos).2 c hc).1⟩

/-- A call that can be corrected: with and without quantisation the layer returns tensors of the same shape, without empty dimensions, and
with `C` channels where bias correction looks for them. -/
structure Correctable (L : CorrLayer K) (C : ℕ) (x : Tensor K) : Prop where
  wf : ∀ q, (L.forward q x).WF
  shape : (L.forward true x).shape = (L.forward false x).shape
  rank : channelDim L.isLinear (L.forward false x).shape.length < (L.forward false x).shape.length
  nonempty : 0 < (L.forward false x).shape.prod
  channels : (L.forward false x).shape.getD (channelDim L.isLinear (L.forward false x).shape.length) 0 = C

/-- The mean of channel `c` of the output of a layer, with or without quantisation, where channels lie along dimension 2 of the three
dimensions of a linear layer's output, and along dimension 1 otherwise. -/
def outputMean (L : CorrLayer K) (quantised : Bool) (c : ℕ) (x : Tensor K) : K :=
  let out := L.forward quantised x
  channelMean out.shape out.data (if out.shape.length = 3 ∧ L.isLinear = true then 2 else 1) c

/-- The inputs a layer was called with. -/
def inputsOf (n : N) (cs : List (N × Tensor K)) : List (Tensor K) := (cs.filter fun p => p.1 = n).map Prod.snd

theorem channelDim_eq (l : Bool) (r : ℕ) : channelDim l r = if r = 3 ∧ l = true then 2 else 1 := by
  unfold channelDim
  by_cases h : r = 3 <;> cases l <;> simp [h]

/-- What is known of the state after some calls. -/
structure CorrInv (layers : N → CorrLayer K) (C : N → ℕ) (cs : List (N × Tensor K)) (st : BiasCorrection N K) : Prop where
  count : ∀ n, st.iterations n = (inputsOf n cs).length
  noFloat : ∀ n, st.floatMeanMap n = none
  none : ∀ n, inputsOf n cs = [] → st.correctionMap n = none
  some : ∀ n, inputsOf n cs ≠ [] → ∃ total, st.correctionMap n = some total ∧ total.length = C n ∧
    ∀ c < C n, total.getD c 0 = ((inputsOf n cs).map fun x => outputMean (layers n) false c x - outputMean (layers n) true c x).sum

theorem hook_corrInv {layers : N → CorrLayer K} {C : N → ℕ} {cs : List (N × Tensor K)} {st : BiasCorrection N K}
    (h : CorrInv layers C cs st) {n : N} {x : Tensor K} (hx : Correctable (layers n) (C n) x) :
    ∃ st', st.hook (layers n) n x = some (st', (layers n).forward false x) ∧ CorrInv layers C (cs ++ [(n, x)]) st' := by
  obtain ⟨hw, hs, hr, hp, hc⟩ := hx
  obtain ⟨fl, hfl⟩ : ∃ fl, fl = computeMean ((layers n).forward false x) (channelDim (layers n).isLinear ((layers n).forward false x).shape.length) :=
    ⟨_, rfl⟩
  obtain ⟨qm, hqm⟩ : ∃ qm, qm = computeMean ((layers n).forward true x) (channelDim (layers n).isLinear ((layers n).forward true x).shape.length) :=
    ⟨_, rfl⟩
  have hf := computeMean_spec _ (hw false) _ hr hp
  have hq := computeMean_spec _ (hw true) (channelDim (layers n).isLinear ((layers n).forward true x).shape.length) (by rw [hs]; exact hr)
    (by rw [hs]; exact hp)
  rw [← hfl, hc] at hf
  rw [← hqm] at hq
  have hqc : ((layers n).forward true x).shape.getD (channelDim (layers n).isLinear ((layers n).forward true x).shape.length) 0 = C n := by
    rw [hs]; exact hc
  rw [hqc] at hq
  have hlen : fl.length = qm.length := by rw [hf.1, hq.1]
  have herr : ∀ c < C n, (List.zipWith (· - ·) fl qm).getD c 0 = outputMean (layers n) false c x - outputMean (layers n) true c x := by
    intro c hcC
    rw [zipWith_getD hlen (by rw [hf.1]; exact hcC), (hf.2 c hcC).1, (hq.2 c hcC).1]
    simp only [outputMean, channelDim_eq]
  have hzl : (List.zipWith (· - ·) fl qm).length = C n := by simp [hf.1, hq.1]
  have hins : ∀ m, inputsOf m (cs ++ [(n, x)]) = inputsOf m cs ++ if n = m then [x] else [] := by
    intro m
    unfold inputsOf
    rw [List.filter_append, List.map_append]
    by_cases hm : n = m <;> simp [hm]
  -- the new total
  obtain ⟨total, ht, htl, hts⟩ : ∃ total, updateCorrection (st.correctionMap n) (List.zipWith (· - ·) fl qm) = some total ∧ total.length = C n ∧
      ∀ c < C n, total.getD c 0 =
        ((inputsOf n (cs ++ [(n, x)])).map fun x => outputMean (layers n) false c x - outputMean (layers n) true c x).sum := by
    rw [hins n, if_pos rfl]
    by_cases he : inputsOf n cs = []
    · rw [h.none n he, he]
      exact ⟨_, rfl, hzl, fun c hcC => by rw [herr c hcC]; simp⟩
    · obtain ⟨total, h1, h2, h3⟩ := h.some n he
      rw [h1, updateCorrection, zipVec_of_length (by rw [h2, hzl])]
      refine ⟨_, rfl, by simp only [List.length_zipWith] at hzl ⊢; omega, fun c hcC => ?_⟩
      rw [zipWith_getD (by rw [h2, hzl]) (by rw [h2]; exact hcC), h3 c hcC, herr c hcC]
      simp
  refine ⟨⟨Function.update st.iterations n (st.iterations n + 1), Function.update st.correctionMap n (some total),
      Function.update st.floatMeanMap n none⟩, ?_, ?_⟩
  · unfold BiasCorrection.hook
    simp only [h.noFloat n]
    rw [← hfl, ← hqm, zipVec_of_length hlen, Option.bind_some, ht]
    rfl
  · refine ⟨fun m => ?_, fun m => ?_, fun m hm => ?_, fun m hm => ?_⟩
    · rw [hins m]
      by_cases he : m = n
      · subst he; simp [h.count]
      · simp only [Function.update_of_ne he]
        rw [if_neg (Ne.symm he), h.count]; simp
    · by_cases he : m = n
      · subst he; simp
      · simp only [Function.update_of_ne he]; exact h.noFloat m
    · rw [hins m] at hm
      by_cases he : m = n
      · subst he; simp at hm
      · rw [if_neg (Ne.symm he), List.append_nil] at hm
        simp only [Function.update_of_ne he]; exact h.none m hm
    · by_cases he : m = n
      · subst he
        exact ⟨total, by simp, htl, hts⟩
      · simp only [Function.update_of_ne he]
        rw [hins m, if_neg (Ne.symm he), List.append_nil] at hm ⊢
        exact h.some m hm

theorem calls_corrInv {layers : N → CorrLayer K} {C : N → ℕ} (cs : List (N × Tensor K)) :
    ∀ {pre : List (N × Tensor K)} {st : BiasCorrection N K}, CorrInv layers C pre st →
      (∀ p ∈ cs, Correctable (layers p.1) (C p.1) p.2) → ∃ st', BiasCorrection.calls layers cs st = some st' ∧ CorrInv layers C (pre ++ cs) st' := by
  induction cs with
  | nil => intro pre st h _; exact ⟨st, rfl, by simpa using h⟩
  | cons p cs ih =>
    intro pre st h hcs
    obtain ⟨n, x⟩ := p
    obtain ⟨st1, h1, h2⟩ := hook_corrInv h (hcs (n, x) List.mem_cons_self)
    obtain ⟨st2, h3, h4⟩ := ih h2 (fun p hp => hcs p (List.mem_cons_of_mem _ hp))
    refine ⟨st2, ?_, by simpa using h4⟩
    rw [BiasCorrection.calls, h1]
    exact h3

/-- After bias correction over any sequence of calls of any layers: a layer that was never called is unchanged; for a layer that was called,
the bias is the original one (zero if there was none) plus the average over its calls of the difference between the mean output without and
with quantisation, channel by channel; a layer without bias keeps none if asked to. Nothing else of a layer changes. -/
theorem C47_bias (skip : Bool) (layers : N → CorrLayer K) (C : N → ℕ) (cs : List (N × Tensor K))
    (hcs : ∀ p ∈ cs, Correctable (layers p.1) (C p.1) p.2) (hb : ∀ n b, (layers n).bias = some b → b.length = C n) :
    ∃ st' out, biasCorrectionMode true skip layers cs .init = some (st', out) ∧ ∀ n, ∃ L', out n = some L' ∧
      L' = { layers n with bias := L'.bias } ∧
      (inputsOf n cs = [] ∨ ((layers n).bias = none ∧ skip = true) → L'.bias = (layers n).bias) ∧
      (inputsOf n cs ≠ [] → ((layers n).bias ≠ none ∨ skip = false) → ∃ b', L'.bias = some b' ∧ b'.length = C n ∧ ∀ c < C n,
        b'.getD c 0 = ((layers n).bias.getD []).getD c 0 +
          averageOf ((inputsOf n cs).map fun x => outputMean (layers n) false c x - outputMean (layers n) true c x)) := by
  have h0 : CorrInv layers C [] (BiasCorrection.init (N := N) (K := K)).enter :=
    ⟨fun _ => rfl, fun _ => rfl, fun _ _ => rfl, fun n h => absurd rfl h⟩
  obtain ⟨st', h1, h2⟩ := calls_corrInv cs h0 hcs
  rw [List.nil_append] at h2
  refine ⟨st', fun n => st'.apply skip n (layers n), by unfold biasCorrectionMode; simp [h1], fun n => ?_⟩
  by_cases he : inputsOf n cs = []
  · refine ⟨layers n, ?_, rfl, fun _ => rfl, fun h => absurd he h⟩
    simp only [BiasCorrection.apply, h2.none n he]
  · obtain ⟨total, h3, h4, h5⟩ := h2.some n he
    have hcorr : ∀ c < C n, (total.map fun v => v / (st'.iterations n : K)).getD c 0 =
        averageOf ((inputsOf n cs).map fun x => outputMean (layers n) false c x - outputMean (layers n) true c x) := by
      intro c hc
      have h6 := h5 c hc
      rw [List.getD_eq_getElem _ _ (by rw [h4]; exact hc)] at h6
      rw [List.getD_eq_getElem _ _ (by rw [List.length_map, h4]; exact hc), List.getElem_map, h6, h2.count]
      unfold averageOf
      rw [List.length_map]
    rcases hbias : (layers n).bias with _ | b
    · cases skip with
      | true =>
        refine ⟨layers n, ?_, rfl, fun _ => hbias, fun _ h => ?_⟩
        · simp only [BiasCorrection.apply, h3, hbias, if_true]
        · simp at h
      | false =>
        refine ⟨{ layers n with bias := some (total.map fun v => v / (st'.iterations n : K)) }, ?_, rfl, fun h => ?_, fun _ _ => ?_⟩
        · simp [BiasCorrection.apply, h3, hbias]
        · rcases h with h | h
          · exact absurd h he
          · simp at h
        · refine ⟨_, rfl, by simp [h4], fun c hc => ?_⟩
          rw [hcorr c hc]
          simp
    · have hbl := hb n b hbias
      have hl : b.length = (total.map fun v => v / (st'.iterations n : K)).length := by rw [List.length_map, h4, hbl]
      refine ⟨{ layers n with bias := some (List.zipWith (· + ·) b (total.map fun v => v / (st'.iterations n : K))) }, ?_, rfl, fun h => ?_,
        fun _ _ => ?_⟩
      · simp only [BiasCorrection.apply, h3, hbias]
        rw [zipVec_of_length hl]
        rfl
      · rcases h with h | h
        · exact absurd h he
        · simp at h
      · refine ⟨_, rfl, by simp [h4, hbl], fun c hc => ?_⟩
        rw [zipWith_getD hl (by rw [hbl]; exact hc), hcorr c hc]
        simp

/-- When disabled, nothing changes. -/
theorem C47_disabled (skip : Bool) (layers : N → CorrLayer K) (cs : List (N × Tensor K)) :
    biasCorrectionMode false skip layers cs .init = some (.init, fun n => some (layers n)) := rfl

/-- Conditions under which channels are where the layer adds its bias: batched convolutions, linear layers with outputs of two or three
dimensions; and the bias is not quantised. -/
structure PlainBias (L : CorrLayer K) (x : Tensor K) : Prop where
  unquantised : ∀ b, L.biasQuant x b = b
  rank : 2 ≤ (L.product false x).shape.length
  linear : L.isLinear = true → (L.product false x).shape.length ≤ 3
  shape : (L.product true x).shape = (L.product false x).shape
  wf : ∀ q, (L.product q x).WF
  nonempty : 0 < (L.product false x).shape.prod

theorem forward_shape (L : CorrLayer K) (q : Bool) (x : Tensor K) : (L.forward q x).shape = (L.product q x).shape := by
  unfold CorrLayer.forward
  rcases L.bias with _ | b <;> rfl

theorem forward_wf (L : CorrLayer K) (q : Bool) (x : Tensor K) (h : (L.product q x).WF) : (L.forward q x).WF := by
  unfold CorrLayer.forward
  rcases L.bias with _ | b
  · exact h
  · exact addBias_wf _ h _ _

theorem channelDim_biasDim {L : CorrLayer K} {x : Tensor K} (h : PlainBias L x) :
    channelDim L.isLinear (L.product false x).shape.length = L.biasDim (L.product false x).shape.length := by
  have h1 := h.rank
  unfold channelDim CorrLayer.biasDim
  rcases hl : L.isLinear with _ | _
  · simp
  · have h2 := h.linear hl
    by_cases h3 : (L.product false x).shape.length = 3
    · simp [h3]
    · have : (L.product false x).shape.length = 2 := by omega
      simp [this]

theorem PlainBias.correctable {L : CorrLayer K} {x : Tensor K} (h : PlainBias L x) {C : ℕ}
    (hC : (L.product false x).shape.getD (L.biasDim (L.product false x).shape.length) 0 = C) : Correctable L C x := by
  refine ⟨fun q => forward_wf L q x (h.wf q), by rw [forward_shape, forward_shape, h.shape], ?_, ?_, ?_⟩
  · rw [forward_shape, channelDim_biasDim h]
    have := h.rank
    unfold CorrLayer.biasDim
    split_ifs <;> omega
  · rw [forward_shape]; exact h.nonempty
  · rw [forward_shape, channelDim_biasDim h]; exact hC

theorem outputMean_forward [CharZero K] {L : CorrLayer K} {x : Tensor K} (h : PlainBias L x) (b : Option (List K)) (q : Bool) {c : ℕ}
    (hc : c < (L.product false x).shape.getD (L.biasDim (L.product false x).shape.length) 0) :
    outputMean { L with bias := b } q c x = outputMean { L with bias := none } q c x + (b.getD []).getD c 0 := by
  rcases b with _ | b
  · simp
  · have hs : (L.product q x).shape = (L.product false x).shape := by cases q <;> simp [h.shape]
    have hcd := channelDim_biasDim h
    unfold outputMean CorrLayer.forward
    simp only [Option.getD_some]
    have hbq : (if q = true then L.biasQuant x b else b) = b := by cases q <;> simp [h.unquantised]
    rw [hbq]
    rw [← channelDim_eq, ← channelDim_eq]
    have hbd : ({ L with bias := some b } : CorrLayer K).biasDim (L.product q x).shape.length =
        channelDim L.isLinear (L.product q x).shape.length := by
      rw [hs, hcd]; rfl
    rw [hbd]
    have hsa : (addBias (L.product q x) (channelDim L.isLinear (L.product q x).shape.length) b).shape = (L.product q x).shape := rfl
    rw [hsa]
    have := channelMean_addBias (L.product q x) (h.wf q) (channelDim L.isLinear (L.product q x).shape.length) (by
      rw [hs, hcd]
      have := h.rank
      unfold CorrLayer.biasDim
      split_ifs <;> omega) (by rw [hs]; exact h.nonempty) b c (by rw [hs, hcd]; exact hc)
    rw [hsa] at this
    exact this

theorem sum_map_sub' {α : Type*} (l : List α) (f g : α → K) : (l.map fun x => f x - g x).sum = (l.map f).sum - (l.map g).sum := by
  induction l with
  | nil => simp
  | cons a l ih => simp only [List.map_cons, List.sum_cons, ih]; ring

theorem averageOf_const_add [CharZero K] {α : Type*} (l : List α) (hl : l ≠ []) (f : α → K) (b : K) :
    averageOf (l.map fun x => f x + b) = averageOf (l.map f) + b := by
  unfold averageOf
  have : ((l.length : ℕ) : K) ≠ 0 := by
    have := List.length_pos_iff.mpr hl
    exact_mod_cast this.ne'
  rw [List.sum_map_add, List.map_const', List.sum_replicate, List.length_map, List.length_map, nsmul_eq_mul]
  field_simp

/-- What bias correction is for: with an unquantised bias, after correction the mean output of the quantised layer, averaged over the inputs
seen, is that of the layer without quantisation before correction, in every channel. -/
theorem C47_mean_matched [CharZero K] (layers : N → CorrLayer K) (C : N → ℕ) (cs : List (N × Tensor K))
    (hcs : ∀ p ∈ cs, PlainBias (layers p.1) p.2 ∧
      ((layers p.1).product false p.2).shape.getD ((layers p.1).biasDim ((layers p.1).product false p.2).shape.length) 0 = C p.1)
    (hb : ∀ n b, (layers n).bias = some b → b.length = C n) (n : N) (hn : inputsOf n cs ≠ []) :
    ∃ st' out L', biasCorrectionMode true false layers cs .init = some (st', out) ∧ out n = some L' ∧
      ∀ c < C n, averageOf ((inputsOf n cs).map (outputMean L' true c)) = averageOf ((inputsOf n cs).map (outputMean (layers n) false c)) := by
  obtain ⟨st', out, h1, h2⟩ := C47_bias false layers C cs (fun p hp => (hcs p hp).1.correctable (hcs p hp).2) hb
  obtain ⟨L', h3, h4, _, h6⟩ := h2 n
  obtain ⟨b', h7, h8, h9⟩ := h6 hn (.inr rfl)
  refine ⟨st', out, L', h1, h3, fun c hc => ?_⟩
  have hmem : ∀ x ∈ inputsOf n cs, PlainBias (layers n) x ∧
      ((layers n).product false x).shape.getD ((layers n).biasDim ((layers n).product false x).shape.length) 0 = C n := by
    intro x hx
    unfold inputsOf at hx
    rw [List.mem_map] at hx
    obtain ⟨⟨m, y⟩, hp, rfl⟩ := hx
    rw [List.mem_filter] at hp
    have : m = n := by simpa using hp.2
    subst this
    exact hcs _ hp.1
  have hL : L' = { layers n with bias := some b' } := by rw [h4, h7]
  have e1 : (inputsOf n cs).map (outputMean L' true c) =
      (inputsOf n cs).map fun x => outputMean { layers n with bias := none } true c x + b'.getD c 0 := by
    apply List.map_congr_left
    intro x hx
    have := hmem x hx
    rw [hL, outputMean_forward this.1 (some b') true (by rw [this.2]; exact hc)]
    rfl
  have e2 : (inputsOf n cs).map (outputMean (layers n) false c) =
      (inputsOf n cs).map fun x => outputMean { layers n with bias := none } false c x + ((layers n).bias.getD []).getD c 0 := by
    apply List.map_congr_left
    intro x hx
    have := hmem x hx
    exact outputMean_forward this.1 (layers n).bias false (by rw [this.2]; exact hc)
  have e3 : ((inputsOf n cs).map fun x => outputMean (layers n) false c x - outputMean (layers n) true c x) =
      (inputsOf n cs).map fun x => outputMean { layers n with bias := none } false c x - outputMean { layers n with bias := none } true c x := by
    apply List.map_congr_left
    intro x hx
    have := hmem x hx
    have a1 := outputMean_forward this.1 (layers n).bias false (c := c) (by rw [this.2]; exact hc)
    have a2 := outputMean_forward this.1 (layers n).bias true (c := c) (by rw [this.2]; exact hc)
    have a3 : ({ layers n with bias := (layers n).bias } : CorrLayer K) = layers n := rfl
    rw [a3] at a1 a2
    rw [a1, a2]
    ring
  rw [e1, e2, averageOf_const_add _ hn, averageOf_const_add _ hn, h9 c hc, e3]
  unfold averageOf
  simp only [List.length_map]
  rw [sum_map_sub']
  ring

/-! ## Sequential models -/

/-- Inputs of the layers of a sequential model when no layer is quantised: each module between layers gets the unquantised output before it. -/
def floatInputs : List (N × CorrLayer K × (Tensor K → Tensor K)) → Tensor K → List (N × Tensor K)
  | [], _ => []
  | (n, L, between) :: rest, x => (n, between x) :: floatInputs rest (L.forward false (between x))

/-- Output of a sequential model when no layer is quantised. -/
def floatOutput : List (N × CorrLayer K × (Tensor K → Tensor K)) → Tensor K → Tensor K
  | [], x => x
  | (_, L, between) :: rest, x => floatOutput rest (L.forward false (between x))

/-- Errors do not accumulate: in a forward pass under bias correction every layer is called with the input it has in the model without
quantised layers, and the model returns the output of that model. -/
theorem C47_no_accumulation (layers : N → CorrLayer K) (net : List (N × CorrLayer K × (Tensor K → Tensor K)))
    (hnet : ∀ l ∈ net, layers l.1 = l.2.1) (x : Tensor K) (st : BiasCorrection N K) :
    BiasCorrection.forwardPass net x st = (BiasCorrection.calls layers (floatInputs net x) st).map fun st' => (st', floatOutput net x) := by
  induction net generalizing x st with
  | nil => rfl
  | cons l net ih =>
    obtain ⟨n, L, between⟩ := l
    have hL : layers n = L := hnet _ List.mem_cons_self
    rw [BiasCorrection.forwardPass, floatInputs, BiasCorrection.calls, floatOutput, hL]
    rcases hh : st.hook L n (between x) with _ | ⟨st1, out⟩
    · rfl
    · simp only [Option.bind_some]
      have hout : out = L.forward false (between x) := by
        unfold BiasCorrection.hook at hh
        simp only at hh
        split at hh
        · cases hh
        · rw [Option.bind_eq_some_iff] at hh
          obtain ⟨e, _, hh⟩ := hh
          rw [Option.map_eq_some_iff] at hh
          obtain ⟨t, _, hh⟩ := hh
          exact (Prod.mk.inj hh).2.symm
      rw [ih (fun l hl => hnet l (List.mem_cons_of_mem _ hl)), hout]

/-! ## Where the mean is not matched, and examples -/

/-- A layer with one channel per entry of the last dimension: without quantisation it returns its input, with quantisation every entry is
rounded down. -/
def floorLayer (isLinear : Bool) (bias : Option (List ℚ)) : CorrLayer ℚ where
  isLinear := isLinear
  product q x := if q then ⟨x.shape, x.data.map fun v => (⌊v⌋ : ℚ)⟩ else x
  biasQuant _ b := b
  bias := bias

/-- The bias of a layer after bias correction. -/
def biasAfter (L : CorrLayer ℚ) (xs : List (Tensor ℚ)) (st : BiasCorrection Unit ℚ) : Option (Option (List ℚ)) :=
  (biasCorrectionMode true false (fun _ => L) (xs.map fun x => ((), x)) st).bind fun r => (r.2 ()).map CorrLayer.bias

/-- Batches of different sizes count alike. After a batch of one sample with error `1/2` and a batch of three samples without error, the bias
is `1/4`, although the mean error of the four samples is `1/8`. -/
theorem C47_uneven_batches :
    let xs : List (Tensor ℚ) := [⟨[1, 1], [1 / 2]⟩, ⟨[3, 1], [0, 0, 0]⟩]
    biasAfter (floorLayer true none) xs .init = some (some [1 / 4]) ∧
      averageOf ((xs.flatMap Tensor.data).map fun v => v - (⌊v⌋ : ℚ)) = 1 / 8 := by
  constructor
  · decide +kernel
  · decide +kernel

/-- Linear layers with outputs of four dimensions are corrected along the wrong dimension: all errors are in channel `0` (the last
dimension), but both channels are corrected by half of it. -/
theorem C47_linear_four_dims :
    let x : Tensor ℚ := ⟨[1, 2, 1, 2], [1 / 2, 0, 1 / 2, 0]⟩
    biasAfter (floorLayer true none) [x] .init = some (some [1 / 4, 1 / 4]) ∧
      channelMean x.shape x.data 3 0 = 1 / 2 ∧ channelMean x.shape x.data 3 1 = 0 ∧
      ∀ v ∈ x.data, (⌊v⌋ : ℚ) = 0 := by
  refine ⟨?_, ?_, ?_, ?_⟩ <;> decide +kernel

/-- Used a second time, the same object applies its old errors again, and forgets how many there were. The layer has mean error `1/2`. A first use
makes the bias `1/2`. The reference includes the new bias, so a second use with a new object adds `1/2` again; with the same object it adds `1`. -/
theorem C47_reused :
    let x : Tensor ℚ := ⟨[2, 1], [1 / 2, 3 / 2]⟩
    let L := floorLayer true none
    ∃ st, (biasCorrectionMode true false (fun _ => L) [((), x)] .init).map Prod.fst = some st ∧
      biasAfter L [x] .init = some (some [1 / 2]) ∧
      biasAfter { L with bias := some [1 / 2] } [x] .init = some (some [1]) ∧
      biasAfter { L with bias := some [1 / 2] } [x] st = some (some [3 / 2]) := by
  refine ⟨_, rfl, ?_, ?_, ?_⟩ <;> decide +kernel

/-- Hypotheses of `C47_mean_matched` (and so of `C47_bias`): two calls of a layer with two channels and a bias. -/
example : let L := floorLayer false (some [1, -1])
    let xs : List (Tensor ℚ) := [⟨[1, 2, 2], [1 / 2, 0, 3 / 4, 5 / 4]⟩, ⟨[2, 2, 1], [1 / 3, 0, 3 / 4, 5 / 4]⟩]
    (∀ x ∈ xs, PlainBias L x ∧ (L.product false x).shape.getD (L.biasDim (L.product false x).shape.length) 0 = 2) ∧
      biasAfter L xs .init = some (some [1 + (1 / 4 + 13 / 24) / 2, -1 + (1 / 2 + 1 / 8) / 2]) := by
  refine ⟨?_, by decide +kernel⟩
  intro x hx
  simp only [List.mem_cons, List.not_mem_nil, or_false] at hx
  rcases hx with rfl | rfl
  · refine ⟨⟨fun b => rfl, by decide, fun h => (by cases h), rfl, fun q => (by cases q <;> rfl), by decide⟩, rfl⟩
  · refine ⟨⟨fun b => rfl, by decide, fun h => (by cases h), rfl, fun q => (by cases q <;> rfl), by decide⟩, rfl⟩

/-- Hypotheses of `C47_no_accumulation`: two layers with a module between them. -/
example : let L := floorLayer true none
    let net : List (ℕ × CorrLayer ℚ × (Tensor ℚ → Tensor ℚ)) := [(0, L, id), (1, L, fun x => ⟨x.shape, x.data.map fun v => 2 * v⟩)]
    (∀ l ∈ net, (fun _ => L) l.1 = l.2.1) ∧ (floatOutput net ⟨[1, 1], [3 / 4]⟩).data = [3 / 2] := by
  refine ⟨?_, by decide +kernel⟩
  intro l hl
  simp only [List.mem_cons, List.not_mem_nil, or_false] at hl
  rcases hl with rfl | rfl <;> rfl

end Brevitas.Props
