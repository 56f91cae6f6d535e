import Verif.Props.Equalize
import Verif.Lemmas.EqualizeCat

/-!
# C42: cross-layer equalisation of networks with concatenations
-/

namespace Brevitas.Props

open Brevitas Net Equalize

theorem crossLayer_outputs_cat {g : Graph ℝ} {store0 : ℕ → Layer ℝ} {part : ℕ → ℕ} (hg : Concats g store0 part) {store : ℕ → Layer ℝ} {r : Region} {S : ℕ → Prop} {O : ℕ → ℕ}
    (hc : ClosedAt g store part r S O) (cfg : Cfg ℝ) (α : ℝ) (inputs : ℕ → Signal ℝ) : outputs (crossLayer cfg α r store) g inputs = outputs store g inputs := by
  classical
  unfold crossLayer
  by_cases h : skips store r = true
  · rw [if_pos h]
  · rw [if_neg h]
    refine outputs_of_consistent (applyFactors_consistent_cat hg hc ?_ _ (fun c => factor_pos _ _ _)) inputs
    intro s hs hn
    apply h
    unfold skips
    rw [Bool.or_eq_true]
    right
    rw [List.any_eq_true]
    exact ⟨s, hs, by rw [hn]; rfl⟩

theorem equalizePass_outputs_cat {g : Graph ℝ} {store0 : ℕ → Layer ℝ} {part : ℕ → ℕ} (hg : Concats g store0 part) (cfg : Cfg ℝ) (α : ℝ) (regions : List Region)
    (store : ℕ → Layer ℝ) (hr : ∀ r ∈ regions, ∃ S O, ClosedAt g store part r S O) :
    SameShape store (equalizePass cfg α regions store).1 ∧ ∀ inputs, outputs (equalizePass cfg α regions store).1 g inputs = outputs store g inputs := by
  unfold equalizePass
  have key : ∀ (l : List Region), (∀ r ∈ l, r ∈ regions) → ∀ s : (ℕ → Layer ℝ) × ℝ, SameShape store s.1 →
      SameShape store (l.foldl (fun s r => (crossLayer cfg α r s.1, max s.2 (regionChange cfg α r s.1))) s).1 ∧ ∀ inputs,
        outputs (l.foldl (fun s r => (crossLayer cfg α r s.1, max s.2 (regionChange cfg α r s.1))) s).1 g inputs
          = outputs s.1 g inputs := by
    intro l
    induction l with
    | nil => intro _ s hs; exact ⟨hs, fun _ => rfl⟩
    | cons r l ih =>
      intro hl s hs
      obtain ⟨S, O, hS⟩ := hr r (hl r (by simp))
      obtain ⟨h1, h2⟩ := ih (fun r hr => hl r (List.mem_cons_of_mem _ hr))
        (crossLayer cfg α r s.1, max s.2 (regionChange cfg α r s.1))
        (sameShape_trans hs (sameShape_crossLayer _ _ _ _))
      refine ⟨h1, fun inputs => ?_⟩
      rw [List.foldl_cons, h2 inputs]
      exact crossLayer_outputs_cat hg (hS.congr hs) cfg α inputs
  exact key regions (fun r hr => hr) (store, 0) (fun m => ⟨rfl, rfl, rfl⟩)

theorem equalizeLoop_outputs_cat {g : Graph ℝ} {store0 : ℕ → Layer ℝ} {part : ℕ → ℕ} (hg : Concats g store0 part) (cfg : Cfg ℝ) (threshold : Option ℝ) (regions : List Region)
    (n : ℕ) : ∀ (store : ℕ → Layer ℝ), (∀ r ∈ regions, ∃ S O, ClosedAt g store part r S O) → ∀ inputs,
      outputs (equalizeLoop cfg threshold regions n store) g inputs = outputs store g inputs := by
  induction n with
  | zero => intro store _ inputs; rfl
  | succ n ih =>
    intro store hr inputs
    obtain ⟨h1, h2⟩ := equalizePass_outputs_cat hg cfg (1 / 2) regions store hr
    have h3 := ih _ (fun r hr' => by obtain ⟨S, O, hS⟩ := hr r hr'; exact ⟨S, O, hS.congr h1⟩) inputs
    unfold equalizeLoop
    dsimp only
    cases threshold with
    | none => dsimp only; rw [h3, h2]
    | some t =>
      dsimp only
      split_ifs
      · exact h2 inputs
      · rw [h3, h2]

/-- C42, networks with concatenations: finding the regions and equalising them, for any options, number of iterations and threshold, never fails and leaves what the network computes unchanged, on every
input and for all weights and biases.  There may be any number of concatenations with any number of operands, sums and branches before and after them, and operands that cannot be equalised.
Missing: sources that go into several concatenations, operands of concatenations that are sums or come from a layer without weights in a part with sums, products, sums with constants, and layers that are used at
several places.  The code gets cases of each of these wrong (see the theorems that follow and those of `Props/Equalize.lean`). -/
theorem C42_concatenations_partial (g : Graph ℝ) (store : ℕ → Layer ℝ) (part : ℕ → ℕ) (hg : Concats g store part) (cfg : Cfg ℝ) (iterations : ℕ) (threshold : Option ℝ) :
    ∃ store', equalizeGraph cfg iterations threshold g store = some store' ∧ ∀ inputs, outputs store' g inputs = outputs store g inputs := by
  obtain ⟨regions, h1, h2⟩ := extractRegions_cat_spec hg
  refine ⟨_, by rw [equalizeGraph, h1]; rfl, ?_⟩
  exact equalizeLoop_outputs_cat hg cfg threshold regions iterations store h2

/-- C42, the regions: in such a network every layer of a region gets the positions of its channels in the concatenation: what feeds operand `k` starts after the channels of the operands before it. -/
theorem C42_concatenation_positions (g : Graph ℝ) (store : ℕ → Layer ℝ) (part : ℕ → ℕ) (hg : Concats g store part) (regions : List Region) (hr : extractRegions g store = some regions) (r : Region) (hmem : r ∈ regions)
    (c : ℕ) (sizes : List ℕ) (hc : (nodeAt g c).op = .cat sizes) (k n m : ℕ) (hk : (nodeAt g c).ins[k]? = some n) (hn : (nodeAt g n).op = .module m) (ix : EqIdx) (hix : (m, ix) ∈ r.srcs) :
    ix = ⟨0, (store m).outCh, (sizes.take k).sum⟩ := by
  obtain ⟨regions', h1, h2⟩ := extractRegions_cat_spec hg
  rw [hr] at h1
  cases h1
  obtain ⟨S, O, hS⟩ := h2 r hmem
  obtain ⟨n', e1, e2, e3⟩ := hS.src m ix hix
  rw [← hg.once n n' m hn e1] at e2 e3
  have hin : n ∈ (nodeAt g c).ins := List.mem_of_getElem? hk
  have huser := hS.user n c e2 (lt_of_mem_ins hin) hin
  rw [hc] at huser
  have hown := hS.own c huser
  rw [hc] at hown
  rw [e3, hown.2.2 k n hk]

/-- Two branches are concatenated and added to a third: `conv3([relu(conv0 x), conv1 x] + conv2 x)`. -/
noncomputable def branchesNet : Graph ℝ :=
  [⟨.input 0, []⟩, ⟨.module 0, [0]⟩, ⟨.act (.leaky 0), [1]⟩, ⟨.module 1, [0]⟩, ⟨.cat [1, 1], [2, 3]⟩, ⟨.module 2, [0]⟩, ⟨.add none, [4, 5]⟩, ⟨.module 3, [6]⟩, ⟨.output, [7]⟩]

noncomputable def branchesStore : ℕ → Layer ℝ := fun m =>
  if m = 2 then ⟨.dense, 2, 1, 1, fun _ _ _ => 1, none, fun p _ => some p, id⟩ else if m = 3 then ⟨.dense, 1, 2, 1, fun _ _ _ => 1, none, fun p _ => some p, id⟩ else scalarLayer 4

example : extractRegions branchesNet branchesStore = some [⟨[(0, ⟨0, 1, 0⟩), (1, ⟨0, 1, 1⟩), (2, ⟨0, 2, 0⟩)], [(3, ⟨0, 2, 0⟩)]⟩] := by rfl

/-- The parts of `branchesNet`. -/
def branchesPart : ℕ → ℕ := fun n => [0, 1, 1, 2, 3, 3, 3, 4, 5].getD n 6

theorem branchesNet_default {n : ℕ} (hn : 9 ≤ n) : nodeAt branchesNet n = ⟨.output, []⟩ := by
  rw [nodeAt, List.getD_eq_default _ _ (by simpa [branchesNet] using hn)]

theorem concats_branchesNet : Concats branchesNet branchesStore branchesPart := by
  have dflt : ∀ {n : ℕ} {P : Prop}, (n < 9 → P) → (9 ≤ n → P) → P := fun h1 h2 => (Nat.lt_or_ge _ 9).elim h1 h2
  have cats : ∀ c s, (nodeAt branchesNet c).op = .cat s → c = 4 ∧ s = [1, 1] := by
    intro c s h
    refine dflt (n := c) (fun hn => ?_) (fun hn => ?_)
    · interval_cases c <;> simp [branchesNet, nodeAt] at h
      exact ⟨rfl, h.symm⟩
    · rw [branchesNet_default hn] at h
      cases h
  refine ⟨?_, ?_, ?_, ?_, ?_, ?_, ?_, ?_, ?_⟩
  · intro n i hi
    refine dflt (n := n) (fun hn => ?_) (fun hn => ?_)
    · interval_cases n <;> simp [branchesNet, nodeAt] at hi <;> omega
    · rw [branchesNet_default hn] at hi
      simp at hi
  · intro n hn h1 h2 h3
    simp only [branchesNet, List.length_cons, List.length_nil] at hn
    interval_cases n
    · exact absurd rfl (h2 0)
    · exact ⟨0, rfl⟩
    · exact ⟨1, rfl⟩
    · exact ⟨0, rfl⟩
    · exact absurd rfl (h3 [1, 1])
    · exact ⟨0, rfl⟩
    · exact absurd rfl (h1 none)
    · exact ⟨6, rfl⟩
    · exact ⟨7, rfl⟩
  · intro n h
    refine dflt (n := n) (fun hn => ?_) (fun hn => ?_)
    · interval_cases n <;> simp [branchesNet, nodeAt] at h
    · rw [branchesNet_default hn] at h
      cases h
  · intro n k h
    refine dflt (n := n) (fun hn => ?_) (fun hn => ?_)
    · interval_cases n <;> simp [branchesNet, nodeAt] at h
      exact h.symm
    · rw [branchesNet_default hn] at h
      cases h
  · intro n n' m h h'
    refine dflt (n := n) (fun hn => ?_) (fun hn => ?_)
    · refine dflt (n := n') (fun hn' => ?_) (fun hn' => ?_)
      · interval_cases n <;> interval_cases n' <;> simp [branchesNet, nodeAt] at h h' <;> omega
      · rw [branchesNet_default hn'] at h'
        cases h'
    · rw [branchesNet_default hn] at h
      cases h
  · intro n h i hi
    refine dflt (n := n) (fun hn => ?_) (fun hn => ?_)
    · interval_cases n <;> simp [branchesNet, nodeAt] at h hi
      · subst hi
        rfl
      · rcases hi with rfl | rfl <;> rfl
    · rw [branchesNet_default hn] at h
      simp at h
  · intro c s h
    obtain ⟨rfl, rfl⟩ := cats c s h
    decide
  · intro c c' s s' h h' _ _ _
    rw [(cats c s h).1, (cats c' s' h').1]
  · intro c s h
    obtain ⟨rfl, rfl⟩ := cats c s h
    refine List.Forall₂.cons ⟨Or.inl (Branch.act 2 1 (.leaky 0) _ rfl rfl (Branch.layer 1 0 rfl)), Or.inr ?_⟩
      (List.Forall₂.cons ⟨Or.inl (Branch.layer 3 1 rfl), Or.inl ⟨1, rfl⟩⟩ .nil)
    intro n k hp h
    refine dflt (n := n) (fun hn => ?_) (fun hn => ?_)
    · interval_cases n <;> simp [branchesNet, nodeAt] at h
      simp [branchesPart] at hp
    · rw [branchesNet_default hn] at h
      cases h

example (iterations : ℕ) : ∃ store', equalizeGraph exCfg iterations none branchesNet branchesStore = some store' ∧
    ∀ inputs, outputs store' branchesNet inputs = outputs branchesStore branchesNet inputs :=
  C42_concatenations_partial _ _ _ concats_branchesNet _ _ _

/-- A sum is concatenated with `conv2`, and the result is added to `conv3`: `conv4([conv0 x + conv1 x, conv2 x] + conv3 x)`. -/
noncomputable def sumCatNet : Graph ℝ :=
  [⟨.input 0, []⟩, ⟨.module 0, [0]⟩, ⟨.module 1, [0]⟩, ⟨.module 2, [0]⟩, ⟨.add none, [1, 2]⟩, ⟨.cat [1, 1], [4, 3]⟩, ⟨.module 3, [0]⟩, ⟨.add none, [5, 6]⟩, ⟨.module 4, [7]⟩, ⟨.output, [8]⟩]

/-- All weights are 1, except that of the second channel of `conv3`, which is 4. -/
noncomputable def sumCatStore : ℕ → Layer ℝ := fun m =>
  if m = 3 then ⟨.dense, 2, 1, 1, fun o _ _ => if o = 1 then 4 else 1, none, fun p _ => some p, id⟩ else
    if m = 4 then ⟨.dense, 1, 2, 1, fun _ _ _ => 1, none, fun p _ => some p, id⟩ else scalarLayer 1

/-- The region found in `sumCatNet`: the channel of `conv2` is taken for the first one. -/
def sumCatRegion : Region := ⟨[(0, ⟨0, 1, 0⟩), (1, ⟨0, 1, 0⟩), (2, ⟨0, 1, 0⟩), (3, ⟨0, 2, 0⟩)], [(4, ⟨0, 2, 0⟩)]⟩

/-- C42 is false of the code when an operand of a concatenation is a sum: the channels of the operands after it are given the wrong positions. -/
theorem C42_sum_before_concatenation_changed : ∃ (g : Graph ℝ) (store store' : ℕ → Layer ℝ) (x : ℕ → Signal ℝ),
    equalizeGraph exCfg 1 none g store = some store' ∧ outputs store' g x ≠ outputs store g x := by
  have hreg : extractRegions sumCatNet sumCatStore = some [sumCatRegion] := rfl
  have hs : skips sumCatStore sumCatRegion = false := by
    simp [skips, maxShapeSrcs, maxShapeSinks, sumCatStore, sumCatRegion, inputAxisIsOutput]
  have hf0 : scalingFactors exCfg (1 / 2) sumCatStore sumCatRegion 0 = 1 := by
    have e : scalingFactors exCfg (1 / 2) sumCatStore sumCatRegion 0 = factor (1 / 2) 1 1 := by
      simp [scalingFactors, srcsRange, sinksRange, srcsRangeStep, sinksRangeStep, exCfg, StatKind.fn, channelMaxabs, absMax,
        torchMax, srcRow, sinkRow, inputAxisIsOutput, sumCatStore, sumCatRegion, scalarLayer]
      try norm_num
    rw [e, factor_half (by unfold epsilon; norm_num) (by unfold epsilon; norm_num), Real.sqrt_one, div_one]
  have hf1 : scalingFactors exCfg (1 / 2) sumCatStore sumCatRegion 1 = 2 := by
    have e : scalingFactors exCfg (1 / 2) sumCatStore sumCatRegion 1 = factor (1 / 2) 4 1 := by
      simp [scalingFactors, srcsRange, sinksRange, srcsRangeStep, sinksRangeStep, exCfg, StatKind.fn, channelMaxabs, absMax,
        torchMax, srcRow, sinkRow, inputAxisIsOutput, sumCatStore, sumCatRegion, scalarLayer]
      try norm_num
    rw [e, factor_half (by unfold epsilon; norm_num) (by unfold epsilon; norm_num), show (4 : ℝ) = 2 ^ 2 by norm_num,
      Real.sqrt_sq (by norm_num), Real.sqrt_one, div_one]
  refine ⟨sumCatNet, sumCatStore, _, fun _ _ _ => 1, by rw [equalizeGraph, hreg]; rfl, ?_⟩
  simp only [equalizeLoop, equalizePass, List.foldl_cons, List.foldl_nil, crossLayer, hs, Bool.false_eq_true, if_false]
  generalize scalingFactors exCfg (1 / 2) sumCatStore sumCatRegion = f at hf0 hf1 ⊢
  intro he
  have := congrArg (List.map fun s : Signal ℝ => s 0 0) he
  simp [outputs, run, evalNode, sumCatNet, Node.isOutput, catSignals, applyFactors, sumCatRegion, updateStore, sumCatStore, scalarLayer, scaleOut, scaleIn, partialScaling, inputAxisIsOutput, hf0, hf1, Layer.eval,
    Layer.sample, Layer.biasAt, Layer.reads, Finset.sum_range_succ] at this
  norm_num at this
/-- `relu(conv0 x)` is concatenated with `conv1 x`, and also added to `conv0 x`. -/
noncomputable def reluCatNet : Graph ℝ :=
  [⟨.input 0, []⟩, ⟨.module 0, [0]⟩, ⟨.act (.leaky 0), [1]⟩, ⟨.add none, [2, 1]⟩, ⟨.module 2, [3]⟩, ⟨.output, [4]⟩, ⟨.module 1, [0]⟩, ⟨.cat [1, 1], [2, 6]⟩, ⟨.module 3, [0]⟩, ⟨.add none, [7, 8]⟩,
    ⟨.module 4, [9]⟩, ⟨.output, [10]⟩]

/-- All weights are 1, except that of the second channel of `conv3`, which is 4. -/
noncomputable def reluCatStore : ℕ → Layer ℝ := fun m =>
  if m = 3 then ⟨.dense, 2, 1, 1, fun o _ _ => if o = 1 then 4 else 1, none, fun p _ => some p, id⟩ else
    if m = 4 then ⟨.dense, 1, 2, 1, fun _ _ _ => 1, none, fun p _ => some p, id⟩ else scalarLayer 1

/-- The region found in `reluCatNet`: the channel of `conv1` is taken for the first one. -/
def reluCatRegion : Region := ⟨[(0, ⟨0, 1, 0⟩), (1, ⟨0, 1, 0⟩), (3, ⟨0, 2, 0⟩)], [(2, ⟨0, 1, 0⟩), (4, ⟨0, 2, 0⟩)]⟩

/-- C42 is false of the code when the layer that feeds an operand of a concatenation is reached first through a sum: the channels of the operands after it are given the wrong positions. -/
theorem C42_sum_beside_concatenation_changed : ∃ (g : Graph ℝ) (store store' : ℕ → Layer ℝ) (x : ℕ → Signal ℝ),
    equalizeGraph exCfg 1 none g store = some store' ∧ outputs store' g x ≠ outputs store g x := by
  have hreg : extractRegions reluCatNet reluCatStore = some [reluCatRegion] := rfl
  have hs : skips reluCatStore reluCatRegion = false := by
    simp [skips, maxShapeSrcs, maxShapeSinks, reluCatStore, reluCatRegion, inputAxisIsOutput, scalarLayer]
  have hf0 : scalingFactors exCfg (1 / 2) reluCatStore reluCatRegion 0 = 1 := by
    have e : scalingFactors exCfg (1 / 2) reluCatStore reluCatRegion 0 = factor (1 / 2) 1 1 := by
      simp [scalingFactors, srcsRange, sinksRange, srcsRangeStep, sinksRangeStep, exCfg, StatKind.fn, channelMaxabs, absMax,
        torchMax, srcRow, sinkRow, inputAxisIsOutput, reluCatStore, reluCatRegion, scalarLayer]
      try norm_num
    rw [e, factor_half (by unfold epsilon; norm_num) (by unfold epsilon; norm_num), Real.sqrt_one, div_one]
  have hf1 : scalingFactors exCfg (1 / 2) reluCatStore reluCatRegion 1 = 2 := by
    have e : scalingFactors exCfg (1 / 2) reluCatStore reluCatRegion 1 = factor (1 / 2) 4 1 := by
      simp [scalingFactors, srcsRange, sinksRange, srcsRangeStep, sinksRangeStep, exCfg, StatKind.fn, channelMaxabs, absMax,
        torchMax, srcRow, sinkRow, inputAxisIsOutput, reluCatStore, reluCatRegion, scalarLayer]
      try norm_num
    rw [e, factor_half (by unfold epsilon; norm_num) (by unfold epsilon; norm_num), show (4 : ℝ) = 2 ^ 2 by norm_num,
      Real.sqrt_sq (by norm_num), Real.sqrt_one, div_one]
  refine ⟨reluCatNet, reluCatStore, _, fun _ _ _ => 1, by rw [equalizeGraph, hreg]; rfl, ?_⟩
  simp only [equalizeLoop, equalizePass, List.foldl_cons, List.foldl_nil, crossLayer, hs, Bool.false_eq_true, if_false]
  generalize scalingFactors exCfg (1 / 2) reluCatStore reluCatRegion = f at hf0 hf1 ⊢
  intro he
  have := congrArg (List.map fun s : Signal ℝ => s 0 0) he
  simp [outputs, run, evalNode, reluCatNet, Node.isOutput, catSignals, applyFactors, reluCatRegion, updateStore, reluCatStore, scalarLayer, scaleOut, scaleIn, partialScaling, inputAxisIsOutput, hf0, hf1, Layer.eval,
    Layer.sample, Layer.biasAt, Layer.reads, Finset.sum_range_succ] at this
  obtain ⟨a, b⟩ := this
  linarith

end Brevitas.Props
