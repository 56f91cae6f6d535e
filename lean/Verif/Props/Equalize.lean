import Verif.Lemmas.EqualizeRange
import Mathlib.Tactic.IntervalCases

/-!
# C42, C43: cross-layer equalisation
-/

set_option linter.unusedSectionVars false

namespace Brevitas.Props

open Brevitas Net Equalize

/-! ## C42 -/

/-- C42: every scaling factor is positive, for every pair of ranges and every exponent. -/
theorem C42_factors_positive (cfg : Cfg ℝ) (α : ℝ) (store : ℕ → Layer ℝ) (r : Region) (c : ℕ) :
    0 < scalingFactors cfg α store r c := factor_pos _ _ _

example : factor (1 / 2) 4 1 = 2 := by
  rw [factor_half (by unfold epsilon; norm_num) (by unfold epsilon; norm_num), show (4 : ℝ) = 2 ^ 2 by norm_num,
    Real.sqrt_sq (by norm_num), Real.sqrt_one, div_one]

/-- C42, one application with arbitrary factors, for any network (also with concatenations and products).  If dividing
the value of every node by the labels `lab` turns each layer of the network into its rescaled version, then the network
returns the same values.  This is the condition that a correct region has to meet. -/
theorem C42_consistent_rescaling {K : Type*} [Field K] [LinearOrder K] [IsStrictOrderedRing K] [FloorRing K]
    (g : Graph K) (store store' : ℕ → Layer K) (lab : ℕ → ℕ → K) (h : Consistent store store' lab g)
    (inputs : ℕ → Signal K) : outputs store' g inputs = outputs store g inputs :=
  outputs_of_consistent h inputs

theorem crossLayer_outputs {g : Graph ℝ} (hg : Plain g) {store : ℕ → Layer ℝ} {r : Region} {S : ℕ → Prop}
    (hc : Closed g store r S) (cfg : Cfg ℝ) (α : ℝ) (inputs : ℕ → Signal ℝ) :
    outputs (crossLayer cfg α r store) g inputs = outputs store g inputs := by
  classical
  unfold crossLayer
  by_cases h : skips store r = true
  · rw [if_pos h]
  · rw [if_neg h]
    refine outputs_of_consistent (applyFactors_consistent hg hc ?_ _ (fun c => factor_pos _ _ _)) inputs
    intro s hs hn
    apply h
    unfold skips
    rw [Bool.or_eq_true]
    right
    rw [List.any_eq_true]
    exact ⟨s, hs, by rw [hn]; rfl⟩

theorem sameShape_crossLayer (cfg : Cfg ℝ) (α : ℝ) (r : Region) (store : ℕ → Layer ℝ) :
    SameShape store (crossLayer cfg α r store) := by
  unfold crossLayer
  split_ifs
  · exact fun m => ⟨rfl, rfl, rfl⟩
  · exact sameShape_applyFactors _ _ _

theorem sameShape_trans {a b c : ℕ → Layer ℝ} (h : SameShape a b) (h' : SameShape b c) : SameShape a c := fun m =>
  ⟨(h' m).1.trans (h m).1, (h' m).2.1.trans (h m).2.1, (h' m).2.2.trans (h m).2.2⟩

theorem equalizePass_outputs {g : Graph ℝ} (hg : Plain g) (cfg : Cfg ℝ) (α : ℝ) (regions : List Region)
    (store : ℕ → Layer ℝ) (hr : ∀ r ∈ regions, ∃ S, Closed g store r S) :
    SameShape store (equalizePass cfg α regions store).1 ∧ ∀ inputs,
      outputs (equalizePass cfg α regions store).1 g inputs = outputs store g inputs := by
  unfold equalizePass
  have key : ∀ (l : List Region), (∀ r ∈ l, r ∈ regions) → ∀ s : (ℕ → Layer ℝ) × ℝ, SameShape store s.1 →
      SameShape store (l.foldl (fun s r => (crossLayer cfg α r s.1, max s.2 (regionChange cfg α r s.1))) s).1 ∧ ∀ inputs,
        outputs (l.foldl (fun s r => (crossLayer cfg α r s.1, max s.2 (regionChange cfg α r s.1))) s).1 g inputs
          = outputs s.1 g inputs := by
    intro l
    induction l with
    | nil => intro _ s hs; exact ⟨hs, fun _ => rfl⟩
    | cons r l ih =>
      intro hl s hs
      obtain ⟨S, hS⟩ := hr r (hl r (by simp))
      obtain ⟨h1, h2⟩ := ih (fun r hr => hl r (List.mem_cons_of_mem _ hr))
        (crossLayer cfg α r s.1, max s.2 (regionChange cfg α r s.1))
        (sameShape_trans hs (sameShape_crossLayer _ _ _ _))
      refine ⟨h1, fun inputs => ?_⟩
      rw [List.foldl_cons, h2 inputs]
      exact crossLayer_outputs hg (hS.congr hs) cfg α inputs
  exact key regions (fun r hr => hr) (store, 0) (fun m => ⟨rfl, rfl, rfl⟩)

theorem equalizeLoop_outputs {g : Graph ℝ} (hg : Plain g) (cfg : Cfg ℝ) (threshold : Option ℝ) (regions : List Region)
    (n : ℕ) : ∀ (store : ℕ → Layer ℝ), (∀ r ∈ regions, ∃ S, Closed g store r S) → ∀ inputs,
      outputs (equalizeLoop cfg threshold regions n store) g inputs = outputs store g inputs := by
  induction n with
  | zero => intro store _ inputs; rfl
  | succ n ih =>
    intro store hr inputs
    obtain ⟨h1, h2⟩ := equalizePass_outputs hg cfg (1 / 2) regions store hr
    have h3 := ih _ (fun r hr' => (hr r hr').imp fun S hS => hS.congr h1) inputs
    unfold equalizeLoop
    dsimp only
    cases threshold with
    | none => dsimp only; rw [h3, h2]
    | some t =>
      dsimp only
      split_ifs
      · exact h2 inputs
      · rw [h3, h2]

/-- C42: a sink that contributes channels `start..stop-1` of its input is scaled only there, each channel by the
factor of its position in the region; its other input channels, its bias and its shape are untouched. -/
theorem C42_sink_scaled_in_range {K : Type*} [Field K] [LinearOrder K] [IsStrictOrderedRing K] [FloorRing K]
    (f : ℕ → K) (ix : EqIdx) (L : Layer K) (hk : L.kind = .dense) (o i t : ℕ) :
    (ix.start ≤ i → i < ix.stop → (scaleIn f ix L).w o i t = L.w o i t * f (ix.offset + (i - ix.start))) ∧
    (i < ix.start ∨ ix.stop ≤ i → (scaleIn f ix L).w o i t = L.w o i t) ∧
    (scaleIn f ix L).b = L.b ∧ (scaleIn f ix L).inCh = L.inCh ∧ (scaleIn f ix L).outCh = L.outCh := by
  have hax : ¬ inputAxisIsOutput L.kind = some true := by rw [hk]; simp [inputAxisIsOutput]
  refine ⟨fun h1 h2 => ?_, fun h => ?_, rfl, rfl, rfl⟩
  · simp only [scaleIn, if_neg hax, partialScaling, if_pos (And.intro h1 h2)]
  · simp only [scaleIn, if_neg hax, partialScaling]
    rw [if_neg (by omega), mul_one]

example : (scaleIn (fun c => if c = 5 then (2 : ℚ) else 3) ⟨1, 3, 4⟩
    ⟨.dense, 1, 4, 1, fun _ _ _ => 1, none, fun p _ => some p, id⟩).w 0 2 0 = 2 := by decide +kernel

theorem foldl_max_le {α : Type*} (l : List α) (v : α → ℕ) (m0 n : ℕ) (h0 : m0 ≤ n) (h : ∀ a ∈ l, v a ≤ n) :
    l.foldl (fun m a => max m (v a)) m0 ≤ n := by
  induction l generalizing m0 with
  | nil => exact h0
  | cons a l ih => exact ih _ (max_le h0 (h a (by simp))) fun b hb => h b (by simp [hb])

theorem le_foldl_max {α : Type*} (l : List α) (v : α → ℕ) (m0 : ℕ) :
    m0 ≤ l.foldl (fun m a => max m (v a)) m0 ∧ ∀ a ∈ l, v a ≤ l.foldl (fun m a => max m (v a)) m0 := by
  induction l generalizing m0 with
  | nil => exact ⟨le_rfl, by simp⟩
  | cons a l ih =>
    obtain ⟨h1, h2⟩ := ih (max m0 (v a))
    refine ⟨(le_max_left _ _).trans h1, ?_⟩
    intro b hb
    rcases List.mem_cons.1 hb with rfl | hb
    · exact (le_max_right _ _).trans h1
    · exact h2 b hb

/-- C42: when a source has more channels than every sink of the region, or a sink more than every source, nothing is
changed: there is no factor for the extra channels. -/
theorem C42_size_mismatch_unchanged (cfg : Cfg ℝ) (α : ℝ) (r : Region) (store : ℕ → Layer ℝ) (hne : r.srcs ≠ [])
    (hne' : r.sinks ≠ [])
    (h : (∃ s ∈ r.srcs, ∀ k ∈ r.sinks, k.2.offset + (k.2.stop - k.2.start) < s.2.stop + s.2.offset) ∨
      (∃ k ∈ r.sinks, ∀ s ∈ r.srcs, s.2.stop + s.2.offset < k.2.offset + (k.2.stop - k.2.start))) :
    crossLayer cfg α r store = store := by
  unfold crossLayer
  rw [if_pos]
  unfold skips
  rw [Bool.or_eq_true]
  left
  rw [Bool.and_eq_true]
  refine ⟨?_, by simp [hne]⟩
  rw [bne_iff_ne]
  have hsrc := le_foldl_max r.srcs (fun s => s.2.stop + s.2.offset) 0
  have hsink := le_foldl_max r.sinks (fun s => s.2.offset + (s.2.stop - s.2.start)) 0
  unfold maxShapeSrcs maxShapeSinks
  rcases h with ⟨s, hs, h⟩ | ⟨k, hk, h⟩
  · have h1 := hsrc.2 s hs
    have h2 := foldl_max_le r.sinks (fun s => s.2.offset + (s.2.stop - s.2.start)) 0 (s.2.stop + s.2.offset - 1)
      (Nat.zero_le _) (fun k hk => by have := h k hk; omega)
    obtain ⟨k0, hk0⟩ := List.exists_mem_of_ne_nil _ hne'
    have h3 := h k0 hk0
    omega
  · have h1 := hsink.2 k hk
    have h2 := foldl_max_le r.srcs (fun s => s.2.stop + s.2.offset) 0 (k.2.offset + (k.2.stop - k.2.start) - 1)
      (Nat.zero_le _) (fun s hs => by have := h s hs; omega)
    obtain ⟨s0, hs0⟩ := List.exists_mem_of_ne_nil _ hne
    have h3 := h s0 hs0
    omega

example : crossLayer ⟨false, .maxabs, .vaiq⟩ (1 / 2) ⟨[(0, ⟨0, 2, 0⟩)], [(1, ⟨0, 3, 0⟩)]⟩
    (fun _ => ⟨.dense, 1, 1, 1, fun _ _ _ => 1, none, fun p _ => some p, id⟩)
    = fun _ => ⟨.dense, 1, 1, 1, fun _ _ _ => 1, none, fun p _ => some p, id⟩ :=
  C42_size_mismatch_unchanged _ _ _ _ (by simp) (by simp) (Or.inr ⟨_, List.mem_singleton_self _, by simp⟩)

/-- C42, whole networks: finding the regions of a network and equalising them, for any options, number of iterations and
threshold, never fails and leaves what the network computes unchanged, on every input and for all weights and biases.
The network may have any number of layers, branches, residual additions and outputs, any activation that is not
positively homogeneous (`other`), and regions with any number of sources and sinks.
Missing: products, sums with constants, and layers that are used at several places, which the code gets wrong (see the
theorems that follow), and concatenations (see `C42_concatenations_partial`). -/
theorem C42_network_partial (g : Graph ℝ) (hg : Plain g) (store : ℕ → Layer ℝ) (cfg : Cfg ℝ) (iterations : ℕ)
    (threshold : Option ℝ) :
    ∃ store', equalizeGraph cfg iterations threshold g store = some store' ∧
      ∀ inputs, outputs store' g inputs = outputs store g inputs := by
  obtain ⟨regions, h1, h2⟩ := extractRegions_spec hg.toNoProducts store
  refine ⟨_, by rw [equalizeGraph, h1]; rfl, ?_⟩
  exact equalizeLoop_outputs hg cfg threshold regions iterations store h2

/-- A one-channel layer `y = w x`, used in the examples. -/
noncomputable def scalarLayer (w : ℝ) : Layer ℝ := ⟨.dense, 1, 1, 1, fun _ _ _ => w, none, fun p _ => some p, id⟩

/-- Two layers with weights 4 and 1, the others with weight 0. -/
noncomputable def fourOne : ℕ → Layer ℝ := fun m => if m = 0 then scalarLayer 4 else if m = 1 then scalarLayer 1 else scalarLayer 0

/-- A residual block: `relu(conv0 x)` is added to `conv1` of itself, and goes into `conv2`. -/
noncomputable def residualNet : Graph ℝ :=
  [⟨.input 0, []⟩, ⟨.module 0, [0]⟩, ⟨.act (.leaky 0), [1]⟩, ⟨.module 1, [2]⟩, ⟨.add none, [2, 3]⟩, ⟨.module 2, [4]⟩,
    ⟨.output, [5]⟩]

example : extractRegions residualNet fourOne =
    some [⟨[(0, ⟨0, 1, 0⟩), (1, ⟨0, 1, 0⟩)], [(1, ⟨0, 1, 0⟩), (2, ⟨0, 1, 0⟩)]⟩] := by rfl

theorem plain_residualNet : Plain residualNet := by
  refine ⟨⟨?_, ?_, ?_, ?_⟩, ?_⟩
  · intro n hn h1 h2
    simp only [residualNet, List.length_cons, List.length_nil] at hn
    interval_cases n
    · exact absurd rfl (h2 0)
    · exact ⟨0, rfl⟩
    · exact ⟨1, rfl⟩
    · exact ⟨2, rfl⟩
    · exact absurd rfl (h1 none)
    · exact ⟨4, rfl⟩
    · exact ⟨5, rfl⟩
  · intro n h
    rcases Nat.lt_or_ge n 7 with hn | hn
    · interval_cases n <;> simp [residualNet, nodeAt] at h
    · rw [nodeAt, List.getD_eq_default _ _ (by simpa [residualNet] using hn)] at h
      cases h
  · intro n s h
    rcases Nat.lt_or_ge n 7 with hn | hn
    · interval_cases n <;> simp [residualNet, nodeAt] at h
    · rw [nodeAt, List.getD_eq_default _ _ (by simpa [residualNet] using hn)] at h
      cases h
  · intro n n' m h h'
    rcases Nat.lt_or_ge n 7 with hn | hn
    · rcases Nat.lt_or_ge n' 7 with hn' | hn'
      · interval_cases n <;> interval_cases n' <;> simp [residualNet, nodeAt] at h h' <;> omega
      · rw [nodeAt, List.getD_eq_default _ _ (by simpa [residualNet] using hn')] at h'
        cases h'
    · rw [nodeAt, List.getD_eq_default _ _ (by simpa [residualNet] using hn)] at h
      cases h
  · intro n k h
    rcases Nat.lt_or_ge n 7 with hn | hn
    · interval_cases n <;> simp [residualNet, nodeAt] at h
      exact h.symm
    · rw [nodeAt, List.getD_eq_default _ _ (by simpa [residualNet] using hn)] at h
      cases h

/-- Layers that multiply their one channel by a number. -/
def ScalarStore (st : ℕ → Layer ℝ) : Prop := ∀ m, (st m).kind = .dense ∧ (st m).outCh = 1 ∧ (st m).inCh = 1 ∧ (st m).taps = 1 ∧
  (st m).b = none ∧ (st m).tap = fun p _ => some p

theorem ScalarStore.eval {st : ℕ → Layer ℝ} (h : ScalarStore st) (m : ℕ) (x : Signal ℝ) (p : ℕ) :
    (st m).eval x 0 p = (st m).w 0 0 0 * x 0 p := by
  obtain ⟨h1, h2, h3, h4, h5, h6⟩ := h m
  simp [Layer.eval, h1, h2, h3, h4, h5, h6, Layer.sample, Layer.reads, Layer.biasAt]

theorem scalarStore_fourOne : ScalarStore fourOne := by
  intro m
  unfold fourOne
  split_ifs <;> exact ⟨rfl, rfl, rfl, rfl, rfl, rfl⟩

theorem scalarStore_applyFactors {st : ℕ → Layer ℝ} (h : ScalarStore st) (f : ℕ → ℝ) (a b : ℕ) (ia ib : EqIdx) :
    ScalarStore (applyFactors f ⟨[(a, ia)], [(b, ib)]⟩ st) := by
  intro m
  obtain ⟨h1, h2, h3, h4, h5, h6⟩ := h m
  simp only [applyFactors, List.foldl_cons, List.foldl_nil, updateStore]
  split_ifs <;> simp [scaleIn, scaleOut, h1, h2, h3, h4, h5, h6]

/-- The options used in the examples: no bias merging, largest absolute value. -/
noncomputable def exCfg : Cfg ℝ := ⟨false, .maxabs, .vaiq⟩

theorem scalar_factor {st : ℕ → Layer ℝ} (h : ScalarStore st) (a b : ℕ) :
    scalingFactors exCfg (1 / 2) st ⟨[(a, ⟨0, 1, 0⟩)], [(b, ⟨0, 1, 0⟩)]⟩ 0
      = factor (1 / 2) |(st a).w 0 0 0| |(st b).w 0 0 0| := by
  obtain ⟨h1, h2, h3, h4, h5, h6⟩ := h a
  obtain ⟨g1, g2, g3, g4, g5, g6⟩ := h b
  have n1 : (-1 : ℝ) ≤ |(st a).w 0 0 0| := by linarith [abs_nonneg ((st a).w 0 0 0)]
  have n2 : (-1 : ℝ) ≤ |(st b).w 0 0 0| := by linarith [abs_nonneg ((st b).w 0 0 0)]
  simp [scalingFactors, srcsRange, sinksRange, srcsRangeStep, sinksRangeStep, exCfg, StatKind.fn, channelMaxabs, absMax,
    torchMax, srcRow, sinkRow, inputAxisIsOutput, h3, h4, g1, g2, g4, n1, n2]

theorem crossLayer_fourOne :
    ScalarStore (crossLayer exCfg (1 / 2) ⟨[(0, ⟨0, 1, 0⟩)], [(1, ⟨0, 1, 0⟩)]⟩ fourOne) ∧
    (crossLayer exCfg (1 / 2) ⟨[(0, ⟨0, 1, 0⟩)], [(1, ⟨0, 1, 0⟩)]⟩ fourOne 0).w 0 0 0 = 2 ∧
    (crossLayer exCfg (1 / 2) ⟨[(0, ⟨0, 1, 0⟩)], [(1, ⟨0, 1, 0⟩)]⟩ fourOne 1).w 0 0 0 = 2 := by
  have hs : skips fourOne ⟨[(0, ⟨0, 1, 0⟩)], [(1, ⟨0, 1, 0⟩)]⟩ = false := by
    simp [skips, maxShapeSrcs, maxShapeSinks, fourOne, scalarLayer, inputAxisIsOutput]
  have hf : scalingFactors exCfg (1 / 2) fourOne ⟨[(0, ⟨0, 1, 0⟩)], [(1, ⟨0, 1, 0⟩)]⟩ 0 = 2 := by
    rw [scalar_factor scalarStore_fourOne]
    have e1 : |(fourOne 0).w 0 0 0| = 4 := by simp [fourOne, scalarLayer]
    have e2 : |(fourOne 1).w 0 0 0| = 1 := by simp [fourOne, scalarLayer]
    rw [e1, e2, factor_half (by unfold epsilon; norm_num) (by unfold epsilon; norm_num), show (4 : ℝ) = 2 ^ 2 by norm_num,
      Real.sqrt_sq (by norm_num), Real.sqrt_one, div_one]
  unfold crossLayer
  rw [hs]
  simp only [Bool.false_eq_true, if_false]
  generalize scalingFactors exCfg (1 / 2) fourOne ⟨[(0, ⟨0, 1, 0⟩)], [(1, ⟨0, 1, 0⟩)]⟩ = f at hf ⊢
  refine ⟨scalarStore_applyFactors scalarStore_fourOne _ _ _ _ _, ?_, ?_⟩
  · simp only [applyFactors, List.foldl_cons, List.foldl_nil, updateStore]
    simp [scaleOut, fourOne, scalarLayer, hf]
    norm_num
  · simp only [applyFactors, List.foldl_cons, List.foldl_nil, updateStore]
    simp [scaleIn, fourOne, scalarLayer, inputAxisIsOutput, partialScaling, hf]

/-- `conv0`, then adding the number 1, then `conv1`. -/
noncomputable def addConstNet : Graph ℝ :=
  [⟨.input 0, []⟩, ⟨.module 0, [0]⟩, ⟨.add (some 1), [1]⟩, ⟨.module 1, [2]⟩, ⟨.output, [3]⟩]

/-- `conv0`, then the square, then `conv1`. -/
noncomputable def squareNet : Graph ℝ :=
  [⟨.input 0, []⟩, ⟨.module 0, [0]⟩, ⟨.mul, [1, 1]⟩, ⟨.module 1, [2]⟩, ⟨.output, [3]⟩]

theorem one_region_result (g : Graph ℝ)
    (h : extractRegions g fourOne = some [⟨[(0, ⟨0, 1, 0⟩)], [(1, ⟨0, 1, 0⟩)]⟩]) :
    ∃ st, equalizeGraph exCfg 1 none g fourOne = some st ∧ ScalarStore st ∧ (st 0).w 0 0 0 = 2 ∧ (st 1).w 0 0 0 = 2 := by
  refine ⟨_, by rw [equalizeGraph, h]; rfl, ?_⟩
  simp only [equalizeLoop, equalizePass, List.foldl_cons, List.foldl_nil]
  exact crossLayer_fourOne

/-- C42 is false of the code for sums with a constant: only tensor operands of an addition are looked at, so that
the constant is not rescaled. -/
theorem C42_sum_with_constant_changed : ∃ (g : Graph ℝ) (store store' : ℕ → Layer ℝ) (x : ℕ → Signal ℝ),
    equalizeGraph exCfg 1 none g store = some store' ∧ outputs store' g x ≠ outputs store g x := by
  obtain ⟨st, h1, h2, h3, h4⟩ := one_region_result addConstNet rfl
  refine ⟨addConstNet, fourOne, st, fun _ _ _ => 1, h1, ?_⟩
  have key : ∀ st, ScalarStore st → (outputs st addConstNet fun _ _ _ => 1).map (fun s => s 0 0)
      = [(st 1).w 0 0 0 * ((st 0).w 0 0 0 * 1 + 1)] := by
    intro st hst
    simp [outputs, run, evalNode, addConstNet, Node.isOutput, hst.eval]
  intro he
  have := congrArg (List.map fun s : Signal ℝ => s 0 0) he
  rw [key st h2, key fourOne scalarStore_fourOne, h3, h4] at this
  simp [fourOne, scalarLayer] at this
  norm_num at this

/-- C42 is false of the code for products of a tensor with itself (or with another tensor of the same region): the factor
enters the product twice. -/
theorem C42_square_changed : ∃ (g : Graph ℝ) (store store' : ℕ → Layer ℝ) (x : ℕ → Signal ℝ),
    equalizeGraph exCfg 1 none g store = some store' ∧ outputs store' g x ≠ outputs store g x := by
  obtain ⟨st, h1, h2, h3, h4⟩ := one_region_result squareNet rfl
  refine ⟨squareNet, fourOne, st, fun _ _ _ => 1, h1, ?_⟩
  have key : ∀ st, ScalarStore st → (outputs st squareNet fun _ _ _ => 1).map (fun s => s 0 0)
      = [(st 1).w 0 0 0 * ((st 0).w 0 0 0 * ((st 0).w 0 0 0))] := by
    intro st hst
    simp [outputs, run, evalNode, squareNet, Node.isOutput, hst.eval]
  intro he
  have := congrArg (List.map fun s : Signal ℝ => s 0 0) he
  rw [key st h2, key fourOne scalarStore_fourOne, h3, h4] at this
  simp [fourOne, scalarLayer] at this
  norm_num at this

/-- A layer used twice: `conv0`, then `conv1`, whose output is returned after a second use of `conv0`, and the output
of the first use of `conv0` goes only into `conv1`. -/
noncomputable def sharedNet : Graph ℝ :=
  [⟨.input 0, []⟩, ⟨.module 0, [0]⟩, ⟨.module 1, [1]⟩, ⟨.other id, [2]⟩, ⟨.module 0, [3]⟩, ⟨.output, [4]⟩]

/-- C42 is false of the code for layers used at several places: the weights are rescaled for one of the uses only. -/
theorem C42_shared_layer_changed : ∃ (g : Graph ℝ) (store store' : ℕ → Layer ℝ) (x : ℕ → Signal ℝ),
    equalizeGraph exCfg 1 none g store = some store' ∧ outputs store' g x ≠ outputs store g x := by
  obtain ⟨st, h1, h2, h3, h4⟩ := one_region_result sharedNet rfl
  refine ⟨sharedNet, fourOne, st, fun _ _ _ => 1, h1, ?_⟩
  have key : ∀ st, ScalarStore st → (outputs st sharedNet fun _ _ _ => 1).map (fun s => s 0 0)
      = [(st 0).w 0 0 0 * ((st 1).w 0 0 0 * ((st 0).w 0 0 0))] := by
    intro st hst
    simp [outputs, run, evalNode, sharedNet, Node.isOutput, hst.eval]
  intro he
  have := congrArg (List.map fun s : Signal ℝ => s 0 0) he
  rw [key st h2, key fourOne scalarStore_fourOne, h3, h4] at this
  simp [fourOne, scalarLayer] at this
  norm_num at this

/-- `conv0` and `conv1` concatenated into `conv2`, and `conv0` and `conv3` concatenated into an operation
that is not scale invariant. -/
noncomputable def twoCatNet : Graph ℝ :=
  [⟨.input 0, []⟩, ⟨.module 0, [0]⟩, ⟨.module 1, [0]⟩, ⟨.cat [1, 1], [1, 2]⟩, ⟨.module 2, [3]⟩,
    ⟨.module 3, [0]⟩, ⟨.cat [1, 1], [1, 5]⟩, ⟨.other id, [6]⟩, ⟨.output, [7]⟩]

/-- Weights of `twoCatNet`: 1 in `conv2`, 4 elsewhere. -/
noncomputable def twoCatStore : ℕ → Layer ℝ := fun m =>
  if m = 2 then ⟨.dense, 1, 2, 1, fun _ _ _ => 1, none, fun p _ => some p, id⟩ else scalarLayer 4

/-- The region found in `twoCatNet`. -/
def twoCatRegion : Region := ⟨[(0, ⟨0, 1, 0⟩), (1, ⟨0, 1, 1⟩)], [(2, ⟨0, 2, 0⟩)]⟩

/-- C42 is false of the code for a source that goes into two concatenations: an operation after the second one that
cannot be equalised is forgotten instead of making the region invalid. -/
theorem C42_second_concatenation_changed : ∃ (g : Graph ℝ) (store store' : ℕ → Layer ℝ) (x : ℕ → Signal ℝ),
    equalizeGraph exCfg 1 none g store = some store' ∧ outputs store' g x ≠ outputs store g x := by
  have hreg : extractRegions twoCatNet twoCatStore = some [twoCatRegion] := rfl
  have hs : skips twoCatStore twoCatRegion = false := by
    simp [skips, maxShapeSrcs, maxShapeSinks, twoCatStore, twoCatRegion, inputAxisIsOutput]
  have hf : scalingFactors exCfg (1 / 2) twoCatStore twoCatRegion 0 = 2 := by
    have e : scalingFactors exCfg (1 / 2) twoCatStore twoCatRegion 0 = factor (1 / 2) 4 1 := by
      simp [scalingFactors, srcsRange, sinksRange, srcsRangeStep, sinksRangeStep, exCfg, StatKind.fn, channelMaxabs, absMax,
        torchMax, srcRow, sinkRow, inputAxisIsOutput, twoCatStore, twoCatRegion, scalarLayer]
      norm_num
    rw [e, factor_half (by unfold epsilon; norm_num) (by unfold epsilon; norm_num), show (4 : ℝ) = 2 ^ 2 by norm_num,
      Real.sqrt_sq (by norm_num), Real.sqrt_one, div_one]
  refine ⟨twoCatNet, twoCatStore, _, fun _ _ _ => 1, by rw [equalizeGraph, hreg]; rfl, ?_⟩
  simp only [equalizeLoop, equalizePass, List.foldl_cons, List.foldl_nil, crossLayer, hs, Bool.false_eq_true, if_false]
  generalize scalingFactors exCfg (1 / 2) twoCatStore twoCatRegion = f at hf ⊢
  have key : ∀ (st : ℕ → Layer ℝ), (outputs st twoCatNet fun _ _ _ => 1).map (fun s => s 0 0)
      = [(st 0).eval (fun _ _ => 1) 0 0] := by
    intro st
    simp [outputs, run, evalNode, twoCatNet, Node.isOutput, catSignals]
  intro he
  have := congrArg (List.map fun s : Signal ℝ => s 0 0) he
  rw [key, key] at this
  simp [applyFactors, twoCatRegion, updateStore, twoCatStore, scalarLayer, scaleOut, hf, Layer.eval, Layer.sample,
    Layer.biasAt] at this

/-! ## C43 -/

/-- C43: with exponent one half, after one step every channel whose ranges are not degenerate has the same range in the
sources and in the sinks: the geometric mean of the two ranges it had.  For every region with any number of sources
and sinks, all of them different layers, for both statistics, when biases are not merged into the statistic. -/
theorem C43_balanced (cfg : Cfg ℝ) (hm : cfg.mergeBias = false) (r : Region) (hd : Distinct r) (store : ℕ → Layer ℝ)
    (hskip : skips store r = false) (c : ℕ) (h1 : epsilon < srcsRange cfg store r c) (h2 : epsilon < sinksRange cfg store r c) :
    let store' := crossLayer cfg (1 / 2) r store
    srcsRange cfg store' r c = Real.sqrt (srcsRange cfg store r c * sinksRange cfg store r c) ∧
    sinksRange cfg store' r c = Real.sqrt (srcsRange cfg store r c * sinksRange cfg store r c) := by
  intro store'
  have he : (0 : ℝ) < epsilon := by unfold epsilon; norm_num
  have hst : store' = applyFactors (scalingFactors cfg (1 / 2) store r) r store := by
    simp [store', crossLayer, hskip]
  have hfc : scalingFactors cfg (1 / 2) store r c
      = Real.sqrt (srcsRange cfg store r c) / Real.sqrt (sinksRange cfg store r c) := factor_half h1 h2
  have hs := srcsRange_applyFactors hd cfg hm (scalingFactors cfg (1 / 2) store r) (fun c => factor_pos _ _ _) store c
  have hk := sinksRange_applyFactors hd cfg (scalingFactors cfg (1 / 2) store r) (fun c => factor_pos _ _ _) store c
  rw [hst]
  generalize srcsRange cfg store r c = a at *
  generalize sinksRange cfg store r c = b at *
  have ha : 0 < a := by linarith
  have hb : 0 < b := by linarith
  have sa : 0 < Real.sqrt a := Real.sqrt_pos.2 ha
  have sb : 0 < Real.sqrt b := Real.sqrt_pos.2 hb
  have qa : a = Real.sqrt a * Real.sqrt a := (Real.mul_self_sqrt ha.le).symm
  have qb : b = Real.sqrt b * Real.sqrt b := (Real.mul_self_sqrt hb.le).symm
  rw [Real.sqrt_mul ha.le]
  constructor
  · rcases hs with ⟨h, _⟩ | ⟨_, h⟩
    · linarith
    · rw [h, hfc]
      nth_rewrite 1 [qa]
      field_simp
  · rcases hk with ⟨h, _⟩ | ⟨_, h⟩
    · linarith
    · rw [h, hfc]
      nth_rewrite 1 [qb]
      field_simp

/-- C43, every exponent: the new ranges are the powers `1 - α` and `α` of the product of the old ones. -/
theorem C43_any_exponent (cfg : Cfg ℝ) (hm : cfg.mergeBias = false) (α : ℝ) (r : Region) (hd : Distinct r) (store : ℕ → Layer ℝ)
    (hskip : skips store r = false) (c : ℕ) (h1 : epsilon < srcsRange cfg store r c) (h2 : epsilon < sinksRange cfg store r c) :
    let store' := crossLayer cfg α r store
    srcsRange cfg store' r c = (srcsRange cfg store r c * sinksRange cfg store r c) ^ (1 - α) ∧
    sinksRange cfg store' r c = (srcsRange cfg store r c * sinksRange cfg store r c) ^ α := by
  intro store'
  have he : (0 : ℝ) < epsilon := by unfold epsilon; norm_num
  have hst : store' = applyFactors (scalingFactors cfg α store r) r store := by
    simp [store', crossLayer, hskip]
  have hfc : scalingFactors cfg α store r c
      = (srcsRange cfg store r c) ^ α / (sinksRange cfg store r c) ^ (1 - α) := by
    unfold scalingFactors factor
    have hn : ¬ (sinksRange cfg store r c ≤ epsilon ∨ srcsRange cfg store r c ≤ epsilon) := by
      push Not
      exact ⟨h2, h1⟩
    dsimp only
    rw [if_neg hn, if_neg hn]
  have hs := srcsRange_applyFactors hd cfg hm (scalingFactors cfg α store r) (fun c => factor_pos _ _ _) store c
  have hk := sinksRange_applyFactors hd cfg (scalingFactors cfg α store r) (fun c => factor_pos _ _ _) store c
  rw [hst]
  generalize srcsRange cfg store r c = a at *
  generalize sinksRange cfg store r c = b at *
  have ha : 0 < a := by linarith
  have hb : 0 < b := by linarith
  have e1 : a ^ (1 - α) * a ^ α = a := by rw [← Real.rpow_add ha]; simp
  have e2 : b ^ (1 - α) * b ^ α = b := by rw [← Real.rpow_add hb]; simp
  have p1 := Real.rpow_pos_of_pos ha α
  have p2 := Real.rpow_pos_of_pos hb (1 - α)
  rw [Real.mul_rpow ha.le hb.le, Real.mul_rpow ha.le hb.le]
  constructor
  · rcases hs with ⟨h, _⟩ | ⟨_, h⟩
    · linarith
    · rw [h, hfc]
      nth_rewrite 1 [← e1]
      field_simp
  · rcases hk with ⟨h, _⟩ | ⟨_, h⟩
    · linarith
    · rw [h, hfc]
      nth_rewrite 1 [← e2]
      field_simp

/-- C43: a degenerate channel, where one of the two ranges is at most `EPSILON`, is left alone: its factor is one. -/
theorem C43_degenerate_channel (cfg : Cfg ℝ) (α : ℝ) (r : Region) (store : ℕ → Layer ℝ) (c : ℕ)
    (h : sinksRange cfg store r c ≤ epsilon ∨ srcsRange cfg store r c ≤ epsilon) : scalingFactors cfg α store r c = 1 :=
  factor_degenerate α h

/-- C43: a second step does not change a channel that has been balanced. -/
theorem C43_second_step (cfg : Cfg ℝ) (hm : cfg.mergeBias = false) (r : Region) (hd : Distinct r) (store : ℕ → Layer ℝ)
    (hskip : skips store r = false) (c : ℕ) (h1 : epsilon < srcsRange cfg store r c) (h2 : epsilon < sinksRange cfg store r c) :
    scalingFactors cfg (1 / 2) (crossLayer cfg (1 / 2) r store) r c = 1 := by
  obtain ⟨e1, e2⟩ := C43_balanced cfg hm r hd store hskip c h1 h2
  have he : (0 : ℝ) < epsilon := by unfold epsilon; norm_num
  have hlt : epsilon < Real.sqrt (srcsRange cfg store r c * sinksRange cfg store r c) := by
    apply Real.lt_sqrt_of_sq_lt
    nlinarith
  unfold scalingFactors
  rw [e1, e2, factor_half hlt hlt]
  exact div_self (Real.sqrt_pos.2 (by linarith)).ne'

/-- C43 in plain words for two layers with `n` channels between them: after one step the largest absolute weight producing a
channel equals the largest absolute weight consuming it. -/
theorem C43_two_layers (A B : Layer ℝ) (n : ℕ) (hB : B.kind = .dense)
    (cfg : Cfg ℝ) (hcfg : cfg.mergeBias = false) (hstat : cfg.stat = .maxabs)
    (c : ℕ) (hc : c < n) (i t o u : ℕ) (hi : i < A.inCh) (ht : t < A.taps) (ho : o < B.outCh) (hu : u < B.taps)
    (hwA : 1 / 1000000000 < |A.w c i t|) (hwB : 1 / 1000000000 < |B.w o c u|) :
    let store' := crossLayer cfg (1 / 2) ⟨[(0, ⟨0, n, 0⟩)], [(1, ⟨0, n, 0⟩)]⟩ (fun m => if m = 0 then A else B)
    ∃ R, (∃ i t, i < A.inCh ∧ t < A.taps ∧ |(store' 0).w c i t| = R) ∧
      (∀ i t, i < A.inCh → t < A.taps → |(store' 0).w c i t| ≤ R) ∧
      (∃ o u, o < B.outCh ∧ u < B.taps ∧ |(store' 1).w o c u| = R) ∧
      (∀ o u, o < B.outCh → u < B.taps → |(store' 1).w o c u| ≤ R) := by
  intro store'
  set store : ℕ → Layer ℝ := fun m => if m = 0 then A else B with hstore
  set r : Region := ⟨[(0, ⟨0, n, 0⟩)], [(1, ⟨0, n, 0⟩)]⟩ with hr
  have hd : Distinct r := by
    refine ⟨by simp [hr], by simp [hr], by simp [hr]⟩
  have s0 : store 0 = A := by simp [hstore]
  have s1 : store 1 = B := by simp [hstore]
  have hskip : skips store r = false := by
    simp [skips, hr, maxShapeSrcs, maxShapeSinks, s1, hB, inputAxisIsOutput]
  have hst : store' = applyFactors (scalingFactors cfg (1 / 2) store r) r store := by
    change crossLayer cfg (1 / 2) r store = _
    rw [crossLayer, hskip]
    rfl
  -- shapes of the new layers
  have t0 : store' 0 = scaleOut (fun c => (scalingFactors cfg (1 / 2) store r c)⁻¹) ⟨0, n, 0⟩ A := by
    rw [hst, ← s0]
    exact applyFactors_src hd _ store (0, ⟨0, n, 0⟩) (by simp [hr])
  have t1 : store' 1 = scaleIn (scalingFactors cfg (1 / 2) store r) ⟨0, n, 0⟩ B := by
    rw [hst, ← s1]
    exact applyFactors_sink hd _ store (1, ⟨0, n, 0⟩) (by simp [hr])
  -- ranges are the largest absolute weights
  have srcR : ∀ st : ℕ → Layer ℝ, srcsRange cfg st r c = channelMaxabs (srcRow (st 0) c) := by
    intro st
    have := stat_nonneg .maxabs (srcRow (st 0) c)
    simp only [StatKind.fn] at this
    simp [srcsRange, hr, srcsRangeStep, hc, hcfg, hstat, StatKind.fn]
    linarith
  have sinkR : ∀ st : ℕ → Layer ℝ, sinksRange cfg st r c = channelMaxabs (sinkRow (st 1) c) := by
    intro st
    have := stat_nonneg .maxabs (sinkRow (st 1) c)
    simp only [StatKind.fn] at this
    simp [sinksRange, hr, sinksRangeStep, hc, hstat, StatKind.fn]
    linarith
  have memA : ∀ (L : Layer ℝ) (x : ℝ), x ∈ srcRow L c ↔ ∃ i t, i < L.inCh ∧ t < L.taps ∧ L.w c i t = x := by
    intro L x
    simp [srcRow]
  have memB : ∀ (L : Layer ℝ) (x : ℝ), L.kind = .dense → (x ∈ sinkRow L c ↔ ∃ o u, o < L.outCh ∧ u < L.taps ∧ L.w o c u = x) := by
    intro L x hL
    simp [sinkRow, hL, inputAxisIsOutput]
  have neA : ∀ L : Layer ℝ, i < L.inCh → t < L.taps → srcRow L c ≠ [] := by
    intro L h1 h2
    exact List.ne_nil_of_mem ((memA L _).2 ⟨i, t, h1, h2, rfl⟩)
  have neB : ∀ L : Layer ℝ, L.kind = .dense → o < L.outCh → u < L.taps → sinkRow L c ≠ [] := by
    intro L h0 h1 h2
    exact List.ne_nil_of_mem ((memB L _ h0).2 ⟨o, u, h1, h2, rfl⟩)
  have ha : epsilon < srcsRange cfg store r c := by
    rw [srcR, s0]
    refine lt_of_lt_of_le ?_ ((channelMaxabs_spec _ (neA A hi ht)).2 _ ((memA A _).2 ⟨i, t, hi, ht, rfl⟩))
    unfold epsilon
    exact hwA
  have hb : epsilon < sinksRange cfg store r c := by
    rw [sinkR, s1]
    refine lt_of_lt_of_le ?_ ((channelMaxabs_spec _ (neB B hB ho hu)).2 _ ((memB B _ hB).2 ⟨o, u, ho, hu, rfl⟩))
    unfold epsilon
    exact hwB
  obtain ⟨e1, e2⟩ := C43_balanced cfg hcfg r hd store hskip c ha hb
  rw [srcR (crossLayer cfg (1 / 2) r store)] at e1
  rw [sinkR (crossLayer cfg (1 / 2) r store)] at e2
  refine ⟨Real.sqrt (srcsRange cfg store r c * sinksRange cfg store r c), ?_⟩
  have hA' : (store' 0).inCh = A.inCh ∧ (store' 0).taps = A.taps := by rw [t0]; exact ⟨rfl, rfl⟩
  have hB' : (store' 1).kind = .dense ∧ (store' 1).outCh = B.outCh ∧ (store' 1).taps = B.taps := by
    rw [t1]; exact ⟨hB, rfl, rfl⟩
  obtain ⟨⟨x, hx, hxe⟩, hxl⟩ := channelMaxabs_spec (srcRow (store' 0) c) (neA _ (by rw [hA'.1]; exact hi) (by rw [hA'.2]; exact ht))
  obtain ⟨⟨y, hy, hye⟩, hyl⟩ := channelMaxabs_spec (sinkRow (store' 1) c)
    (neB _ hB'.1 (by rw [hB'.2.1]; exact ho) (by rw [hB'.2.2]; exact hu))
  rw [e1] at hxe hxl
  rw [e2] at hye hyl
  refine ⟨?_, ?_, ?_, ?_⟩
  · obtain ⟨i', t', h3, h4, h5⟩ := (memA _ _).1 hx
    exact ⟨i', t', by rw [← hA'.1]; exact h3, by rw [← hA'.2]; exact h4, by rw [h5]; exact hxe⟩
  · intro i' t' h3 h4
    exact hxl _ ((memA _ _).2 ⟨i', t', by rw [hA'.1]; exact h3, by rw [hA'.2]; exact h4, rfl⟩)
  · obtain ⟨o', u', h3, h4, h5⟩ := (memB _ _ hB'.1).1 hy
    exact ⟨o', u', by rw [← hB'.2.1]; exact h3, by rw [← hB'.2.2]; exact h4, by rw [h5]; exact hye⟩
  · intro o' u' h3 h4
    exact hyl _ ((memB _ _ hB'.1).2 ⟨o', u', by rw [hB'.2.1]; exact h3, by rw [hB'.2.2]; exact h4, rfl⟩)

/-- C43 with merged biases, in plain words: when the statistic of the producing layer includes its bias divided by the shrink
factor `S` chosen by the code, after one step the largest of the absolute weights and of the shrunk absolute bias producing a
channel equals the largest absolute weight consuming it.  `S` is any positive constant, or chosen by the `vaiq` rule. -/
theorem C43_two_layers_with_bias (A B : Layer ℝ) (bias : ℕ → ℝ) (n : ℕ) (hA : A.b = some bias) (hB : B.kind = .dense)
    (cfg : Cfg ℝ) (hcfg : cfg.mergeBias = true) (hstat : cfg.stat = .maxabs)
    (S : ℝ) (hS : S = shrinkFactor cfg.shrink ((List.range A.outCh).map (srcRow A)) ((List.range A.outCh).map bias))
    (c : ℕ) (hc : c < n) (i t o u : ℕ) (hi : i < A.inCh) (ht : t < A.taps) (ho : o < B.outCh) (hu : u < B.taps)
    (hwA : 1 / 1000000000 < |A.w c i t|) (hwB : 1 / 1000000000 < |B.w o c u|) :
    let store' := crossLayer cfg (1 / 2) ⟨[(0, ⟨0, n, 0⟩)], [(1, ⟨0, n, 0⟩)]⟩ (fun m => if m = 0 then A else B)
    ∃ R bias', (store' 0).b = some bias' ∧
      ((∃ i t, i < A.inCh ∧ t < A.taps ∧ |(store' 0).w c i t| = R) ∨ |bias' c / S| = R) ∧
      (∀ i t, i < A.inCh → t < A.taps → |(store' 0).w c i t| ≤ R) ∧ |bias' c / S| ≤ R ∧
      (∃ o u, o < B.outCh ∧ u < B.taps ∧ |(store' 1).w o c u| = R) ∧
      (∀ o u, o < B.outCh → u < B.taps → |(store' 1).w o c u| ≤ R) := by
  intro store'
  set store : ℕ → Layer ℝ := fun m => if m = 0 then A else B with hstore
  set r : Region := ⟨[(0, ⟨0, n, 0⟩)], [(1, ⟨0, n, 0⟩)]⟩ with hr
  have he : (0 : ℝ) < epsilon := by unfold epsilon; norm_num
  have hd : Distinct r := by
    refine ⟨by simp [hr], by simp [hr], by simp [hr]⟩
  have s0 : store 0 = A := by simp [hstore]
  have s1 : store 1 = B := by simp [hstore]
  have hskip : skips store r = false := by
    simp [skips, hr, maxShapeSrcs, maxShapeSinks, s1, hB, inputAxisIsOutput]
  have hst : store' = applyFactors (scalingFactors cfg (1 / 2) store r) r store := by
    change crossLayer cfg (1 / 2) r store = _
    rw [crossLayer, hskip]
    rfl
  have t0 : store' 0 = scaleOut (fun c => (scalingFactors cfg (1 / 2) store r c)⁻¹) ⟨0, n, 0⟩ A := by
    rw [hst, ← s0]
    exact applyFactors_src hd _ store (0, ⟨0, n, 0⟩) (by simp [hr])
  have t1 : store' 1 = scaleIn (scalingFactors cfg (1 / 2) store r) ⟨0, n, 0⟩ B := by
    rw [hst, ← s1]
    exact applyFactors_sink hd _ store (1, ⟨0, n, 0⟩) (by simp [hr])
  have srcR : srcsRange cfg store r c = channelMaxabs ((srcRow A c).map floorEps ++ [bias c / S]) := by
    have h0 := stat_nonneg .maxabs ((srcRow A c).map floorEps ++ [bias c / S])
    simp only [StatKind.fn] at h0
    have hcomb : combinedRow cfg.shrink A c = (srcRow A c).map floorEps ++ [bias c / S] := by
      rw [hS, combinedRow, hA]
    simp only [srcsRange, hr, List.foldl_cons, List.foldl_nil, srcsRangeStep, s0, hcfg, hstat, StatKind.fn, Nat.zero_add,
      Nat.zero_le, hc, and_self, if_true, Nat.sub_zero, hcomb]
    exact max_eq_right (by linarith)
  have sinkR : ∀ st : ℕ → Layer ℝ, sinksRange cfg st r c = channelMaxabs (sinkRow (st 1) c) := by
    intro st
    have := stat_nonneg .maxabs (sinkRow (st 1) c)
    simp only [StatKind.fn] at this
    simp [sinksRange, hr, sinksRangeStep, hc, hstat, StatKind.fn]
    linarith
  have memA : ∀ (x : ℝ), x ∈ srcRow A c ↔ ∃ i t, i < A.inCh ∧ t < A.taps ∧ A.w c i t = x := by
    intro x
    simp [srcRow]
  have memB : ∀ (L : Layer ℝ) (x : ℝ), L.kind = .dense → (x ∈ sinkRow L c ↔ ∃ o u, o < L.outCh ∧ u < L.taps ∧ L.w o c u = x) := by
    intro L x hL
    simp [sinkRow, hL, inputAxisIsOutput]
  have neB : ∀ L : Layer ℝ, L.kind = .dense → o < L.outCh → u < L.taps → sinkRow L c ≠ [] := by
    intro L h0 h1 h2
    exact List.ne_nil_of_mem ((memB L _ h0).2 ⟨o, u, h1, h2, rfl⟩)
  obtain ⟨⟨x, hx, hxe⟩, hxl⟩ := channelMaxabs_spec ((srcRow A c).map floorEps ++ [bias c / S]) (by simp)
  rw [← srcR] at hxe hxl
  have hfl : ∀ z : ℝ, |z| ≤ |floorEps z| := by
    intro z
    unfold floorEps
    split_ifs with h
    · rwa [abs_of_pos he]
    · exact le_rfl
  have hup : ∀ i t, i < A.inCh → t < A.taps → |A.w c i t| ≤ srcsRange cfg store r c := by
    intro i t h1 h2
    refine (hfl _).trans (hxl _ (List.mem_append_left _ (List.mem_map.2 ⟨_, (memA _).2 ⟨i, t, h1, h2, rfl⟩, rfl⟩)))
  have hupb : |bias c / S| ≤ srcsRange cfg store r c := hxl _ (by simp)
  have ha : epsilon < srcsRange cfg store r c := by
    refine lt_of_lt_of_le ?_ (hup i t hi ht)
    unfold epsilon
    exact hwA
  have hb : epsilon < sinksRange cfg store r c := by
    rw [sinkR, s1]
    refine lt_of_lt_of_le ?_ ((channelMaxabs_spec _ (neB B hB ho hu)).2 _ ((memB B _ hB).2 ⟨o, u, ho, hu, rfl⟩))
    unfold epsilon
    exact hwB
  have hatt : (∃ i t, i < A.inCh ∧ t < A.taps ∧ |A.w c i t| = srcsRange cfg store r c)
      ∨ |bias c / S| = srcsRange cfg store r c := by
    rcases List.mem_append.1 hx with h | h
    · obtain ⟨z, hz, hzx⟩ := List.mem_map.1 h
      obtain ⟨i', t', h1, h2, h3⟩ := (memA z).1 hz
      left
      refine ⟨i', t', h1, h2, ?_⟩
      rw [h3]
      unfold floorEps at hzx
      split_ifs at hzx with hcase
      · rw [← hzx, abs_of_pos he] at hxe
        exact absurd hxe ha.ne
      · rw [hzx]; exact hxe
    · right
      rw [List.mem_singleton.1 h] at hxe
      exact hxe
  have hfc : scalingFactors cfg (1 / 2) store r c
      = Real.sqrt (srcsRange cfg store r c) / Real.sqrt (sinksRange cfg store r c) := factor_half ha hb
  have hk := sinksRange_applyFactors hd cfg (scalingFactors cfg (1 / 2) store r) (fun c => factor_pos _ _ _) store c
  rw [← hst, sinkR store'] at hk
  have hB' : (store' 1).kind = .dense ∧ (store' 1).outCh = B.outCh ∧ (store' 1).taps = B.taps := by
    rw [t1]; exact ⟨hB, rfl, rfl⟩
  obtain ⟨⟨y, hy, hye⟩, hyl⟩ := channelMaxabs_spec (sinkRow (store' 1) c)
    (neB _ hB'.1 (by rw [hB'.2.1]; exact ho) (by rw [hB'.2.2]; exact hu))
  have hw0 : ∀ i t, (store' 0).w c i t = A.w c i t * (scalingFactors cfg (1 / 2) store r c)⁻¹ := by
    intro i t; rw [t0]; simp [scaleOut]
  have hb0 : (store' 0).b = some (fun c => bias c * (scalingFactors cfg (1 / 2) store r c)⁻¹) := by
    rw [t0]; simp [scaleOut, hA]
  generalize srcsRange cfg store r c = a at *
  generalize sinksRange cfg store r c = b at *
  have pa : 0 < a := by linarith
  have pb : 0 < b := by linarith
  have sa : 0 < Real.sqrt a := Real.sqrt_pos.2 pa
  have sb : 0 < Real.sqrt b := Real.sqrt_pos.2 pb
  have qa : a = Real.sqrt a * Real.sqrt a := (Real.mul_self_sqrt pa.le).symm
  have qb : b = Real.sqrt b * Real.sqrt b := (Real.mul_self_sqrt pb.le).symm
  have pf : 0 < scalingFactors cfg (1 / 2) store r c := factor_pos _ _ _
  have hR : a * (scalingFactors cfg (1 / 2) store r c)⁻¹ = Real.sqrt a * Real.sqrt b := by
    rw [hfc]
    nth_rewrite 1 [qa]
    field_simp
  have hR2 : channelMaxabs (sinkRow (store' 1) c) = Real.sqrt a * Real.sqrt b := by
    rcases hk with ⟨h, _⟩ | ⟨_, h⟩
    · linarith
    · rw [h, hfc]
      nth_rewrite 1 [qb]
      field_simp
  rw [hR2] at hye hyl
  have hbs : |bias c * (scalingFactors cfg (1 / 2) store r c)⁻¹ / S|
      = |bias c / S| * (scalingFactors cfg (1 / 2) store r c)⁻¹ := by
    rw [mul_div_right_comm, abs_mul, abs_of_pos (inv_pos.2 pf)]
  refine ⟨Real.sqrt a * Real.sqrt b, _, hb0, ?_, ?_, ?_, ?_, ?_⟩
  · rcases hatt with ⟨i', t', h1, h2, h3⟩ | h
    · exact Or.inl ⟨i', t', h1, h2, by rw [hw0, abs_mul, abs_of_pos (inv_pos.2 pf), h3, hR]⟩
    · exact Or.inr (by rw [hbs, h, hR])
  · intro i' t' h1 h2
    rw [hw0, abs_mul, abs_of_pos (inv_pos.2 pf), ← hR]
    exact mul_le_mul_of_nonneg_right (hup i' t' h1 h2) (inv_pos.2 pf).le
  · rw [hbs, ← hR]
    exact mul_le_mul_of_nonneg_right hupb (inv_pos.2 pf).le
  · obtain ⟨o', u', h3, h4, h5⟩ := (memB _ _ hB'.1).1 hy
    exact ⟨o', u', by rw [← hB'.2.1]; exact h3, by rw [← hB'.2.2]; exact h4, by rw [h5]; exact hye⟩
  · intro o' u' h3 h4
    exact hyl _ ((memB _ _ hB'.1).2 ⟨o', u', by rw [hB'.2.1]; exact h3, by rw [hB'.2.2]; exact h4, rfl⟩)

example : srcsRange exCfg fourOne ⟨[(0, ⟨0, 1, 0⟩)], [(1, ⟨0, 1, 0⟩)]⟩ 0 = 4 ∧
    sinksRange exCfg fourOne ⟨[(0, ⟨0, 1, 0⟩)], [(1, ⟨0, 1, 0⟩)]⟩ 0 = 1 ∧
    (1 : ℝ) / 1000000000 < |(fourOne 0).w 0 0 0| ∧ (1 : ℝ) / 1000000000 < |(fourOne 1).w 0 0 0| := by
  refine ⟨?_, ?_, ?_, ?_⟩ <;>
    simp [srcsRange, sinksRange, srcsRangeStep, sinksRangeStep, exCfg, StatKind.fn, channelMaxabs, absMax, torchMax, srcRow,
      sinkRow, inputAxisIsOutput, fourOne, scalarLayer] <;> norm_num

end Brevitas.Props
