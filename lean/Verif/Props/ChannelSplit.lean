import Verif.Lemmas.ChannelSplit
import Verif.Props.Equalize

/-!
# C45: channel splitting preserves the function of the network

The network semantics are those of `Verif/Spec/Network.lean`.
-/

set_option linter.unusedSectionVars false

namespace Brevitas.Props

open Net Equalize ChannelSplit

variable {K : Type*} [Field K] [LinearOrder K] [IsStrictOrderedRing K] [FloorRing K]

theorem acts_stepsSig {h : K} (hh : 0 < h) (N : ℕ) (ids : List ℕ) (acts : List (Act K)) (x : Signal K) :
    acts.foldl (fun y a => a.eval y) (stepsSig h N ids x) = stepsSig h N ids (acts.foldl (fun y a => a.eval y) x) := by
  induction acts generalizing x with
  | nil => rfl
  | cons a acts ih => rw [List.foldl_cons, act_stepsSig a hh, ih]; rfl

/-- C45: splitting any list of channels (with repetitions) between two layers, with any activations that are positively
homogeneous and any poolings between them, whether the producing or the consuming weights are halved, leaves what the
layers compute together unchanged, for all weights, biases and inputs. -/
theorem C45_pair (store : ℕ → Layer K) (src sink : ℕ) (hne : src ≠ sink) (acts : List (Act K))
    (h1 : (store src).kind = .dense) (h2 : (store sink).kind = .dense) (hN : (store src).outCh = (store sink).inCh)
    (channels : List ℕ) (hc : ∀ id ∈ channels, id < (store src).outCh) (splitInput : Bool) (x : Signal K) :
    let store' := splitRegion [src] [sink] channels splitInput store
    (store' sink).eval (acts.foldl (fun y a => a.eval y) ((store' src).eval x))
      = (store sink).eval (acts.foldl (fun y a => a.eval y) ((store src).eval x)) := by
  intro store'
  have hv := valid_of_lt hc
  have ha : ∀ m, store' m = _ := fun m => splitRegion_apply [src] [sink] (by simp) (by simp) channels splitInput store m
  rw [ha src, ha sink]
  have key : ∀ h h' : K, 0 < h → 2 * (h * h') = 1 →
      (splitChannels channels true h' (store sink)).eval
        (acts.foldl (fun y a => a.eval y) ((splitChannels channels false h (store src)).eval x))
      = (store sink).eval (acts.foldl (fun y a => a.eval y) ((store src).eval x)) := by
    intro h h' hh hhh
    rw [splitOut_eval h1 h hv, acts_stepsSig hh, hN]
    exact splitIn_eval h2 hhh (by rw [← hN]; exact hv) _
  cases splitInput
  · simp only [Bool.false_eq_true, if_false, List.mem_singleton, if_true, hne, hne.symm]
    exact key (1 / 2) 1 (by norm_num) (by norm_num)
  · simp only [if_true, List.mem_singleton, if_false, hne, hne.symm]
    exact key 1 (1 / 2) (by norm_num) (by norm_num)

/-- Two layers with two channels between them, used in the examples. -/
def pairStore : ℕ → Layer ℚ := fun m =>
  if m = 0 then ⟨.dense, 2, 1, 1, fun o _ _ => if o = 0 then 3 else -5, some fun _ => 1, fun p _ => some p, id⟩
  else ⟨.dense, 1, 2, 1, fun _ i _ => if i = 0 then 7 else 2, none, fun p _ => some p, id⟩

example : let st := splitRegion [0] [1] [0, 1, 0] false pairStore
    (st 0).outCh = 5 ∧ (st 1).inCh = 5 ∧ (List.range 5).map (fun o => (st 0).w o 0 0) = [3 / 4, -5 / 2, 3 / 2, -5 / 2, 3 / 4] ∧
    (List.range 5).map (fun o => (st 0).biasAt o) = [1 / 4, 1 / 2, 1 / 2, 1 / 2, 1 / 4] ∧
    (List.range 5).map (fun i => (st 1).w 0 i 0) = [7, 2, 7, 2, 7] := by decide +kernel

example (x : Signal ℚ) := C45_pair pairStore 0 1 (by decide) [.leaky 0] rfl rfl rfl [0, 1, 0] (by decide) false x

/-- C45: the layers of a region keep matching channel counts: each split adds one output channel to every source and one
input channel to every sink, and changes no other channel count. -/
theorem C45_channel_counts (store : ℕ → Layer K) (srcs sinks : List ℕ) (h1 : srcs.Nodup) (h2 : sinks.Nodup)
    (channels : List ℕ) (splitInput : Bool) (m : ℕ) :
    let store' := splitRegion srcs sinks channels splitInput store
    (store' m).outCh = (store m).outCh + (if m ∈ srcs then channels.length else 0) ∧
    (store' m).inCh = (store m).inCh + (if m ∈ sinks then channels.length else 0) := by
  intro store'
  have ha : store' m = _ := splitRegion_apply srcs sinks h1 h2 channels splitInput store m
  rw [ha]
  cases splitInput
  · simp only [Bool.false_eq_true, if_false]
    by_cases hs : m ∈ srcs <;> by_cases hk : m ∈ sinks <;> simp only [hs, hk, if_true, if_false]
    · obtain ⟨_, a2, a3⟩ := splitChannels_in_shape channels (1 : K) (splitChannels channels false (1 / 2) (store m))
      obtain ⟨_, b2, b3⟩ := splitChannels_out_shape channels (1 / 2 : K) (store m)
      rw [a2, a3, b2, b3]
      exact ⟨rfl, rfl⟩
    · obtain ⟨_, b2, b3⟩ := splitChannels_out_shape channels (1 / 2 : K) (store m)
      exact ⟨b3, b2⟩
    · obtain ⟨_, a2, a3⟩ := splitChannels_in_shape channels (1 : K) (store m)
      exact ⟨a2, a3⟩
    · exact ⟨rfl, rfl⟩
  · simp only [if_true]
    by_cases hs : m ∈ srcs <;> by_cases hk : m ∈ sinks <;> simp only [hs, hk, if_true, if_false]
    · obtain ⟨_, a2, a3⟩ := splitChannels_in_shape channels (1 / 2 : K) (store m)
      obtain ⟨_, b2, b3⟩ := splitChannels_out_shape channels (1 : K) (splitChannels channels true (1 / 2) (store m))
      rw [b2, b3, a2, a3]
      exact ⟨rfl, rfl⟩
    · obtain ⟨_, b2, b3⟩ := splitChannels_out_shape channels (1 : K) (store m)
      exact ⟨b3, b2⟩
    · obtain ⟨_, a2, a3⟩ := splitChannels_in_shape channels (1 / 2 : K) (store m)
      exact ⟨a2, a3⟩
    · exact ⟨rfl, rfl⟩

example : let st := splitRegion [0] [1] [1] true pairStore
    (st 0).outCh = 3 ∧ (st 0).inCh = 1 ∧ (st 1).outCh = 1 ∧ (st 1).inCh = 3 := by decide +kernel

theorem network_outputs (g : Graph K) (hg : NoProducts g) (store : ℕ → Layer K) (ratio : K) (splitInput : Bool)
    (hs : (∀ n k, (nodeAt g n).op = .add k → k = none) ∨ splitInput = true) :
    ∃ store', channelSplitting ratio splitInput g store = some store' ∧
      ∀ inputs, outputs store' g inputs = outputs store g inputs := by
  obtain ⟨regions, h1, h2⟩ := extractRegions_spec hg store
  unfold channelSplitting
  rw [h1]
  dsimp only
  obtain ⟨c1, c2⟩ := cleanRegions_spec store (regions.map fun r => (r.srcs.map Prod.fst, r.sinks.map Prod.fst))
  have hcl : ∀ r ∈ cleanRegions store (regions.map fun r => (r.srcs.map Prod.fst, r.sinks.map Prod.fst)),
      (∃ S, ClosedNames g r.1 r.2 S) ∧ r.1 ≠ [] := by
    intro r hr
    obtain ⟨r0, hr0, rfl⟩ := List.mem_map.1 (c1 r hr).1
    obtain ⟨S, hS⟩ := h2 r0 hr0
    refine ⟨⟨S, closedNames hS⟩, ?_⟩
    dsimp only
    rw [ne_eq, List.map_eq_nil_iff]
    exact hS.srcsNe
  exact splitAll_outputs (noMuls_of_noProducts hg) ratio splitInput hs _ c2 (fun r hr => (hcl r hr).1)
    (fun r hr => ⟨(hcl r hr).2, (isSupported_spec (c1 r hr).2).2 (hcl r hr).2⟩) store
    (fun r hr => (isSupported_spec (c1 r hr).2).1)

/-- C45, whole networks: finding the regions of a network, dropping the ones that cannot be split and splitting the others,
for any ratio and both modes, never fails and leaves what the network computes unchanged, on every input and for all
weights and biases.  The network may have any number of layers, branches, residual additions and outputs.
Missing: products and layers used at several places, where the code can be wrong (see below); concatenations are treated in
`Props/ChannelSplitCat`. -/
theorem C45_network_partial (g : Graph K) (hg : Plain g) (store : ℕ → Layer K) (ratio : K) (splitInput : Bool) :
    ∃ store', channelSplitting ratio splitInput g store = some store' ∧
      ∀ inputs, outputs store' g inputs = outputs store g inputs :=
  network_outputs g hg.toNoProducts store ratio splitInput (Or.inl hg.noConst)

/-- C45, the default mode, where the consuming weights are halved: sums may also have constant operands. -/
theorem C45_network_split_input_partial (g : Graph K) (hg : NoProducts g) (store : ℕ → Layer K) (ratio : K) :
    ∃ store', channelSplitting ratio true g store = some store' ∧
      ∀ inputs, outputs store' g inputs = outputs store g inputs :=
  network_outputs g hg store ratio true (Or.inr rfl)

/-- The residual block of C42 has one region, and its layers are split. -/
example : ∃ st, channelSplitting 1 true residualNet fourOne = some st ∧ (st 0).outCh = 2 ∧ (st 1).outCh = 2 ∧
    (st 1).inCh = 2 ∧ (st 2).inCh = 2 ∧ ∀ x, outputs st residualNet x = outputs fourOne residualNet x := by
  obtain ⟨st, h1, h2⟩ := C45_network_partial residualNet plain_residualNet fourOne 1 true
  refine ⟨st, h1, ?_⟩
  have e : channelSplitting (1 : ℝ) true residualNet fourOne
      = some (splitRegion [0, 1] [1, 2] [0] true fourOne) := by
    have hr : extractRegions residualNet fourOne =
      some [⟨[(0, ⟨0, 1, 0⟩), (1, ⟨0, 1, 0⟩)], [(1, ⟨0, 1, 0⟩), (2, ⟨0, 1, 0⟩)]⟩] := by rfl
    unfold channelSplitting
    rw [hr]
    have hcl : cleanRegions fourOne [([0, 1], [1, 2])] = [([0, 1], [1, 2])] := by rfl
    dsimp only [List.map]
    rw [hcl]
    have hch : channelsToSplit fourOne [0, 1] [1, 2] (1 : ℝ) true = some [0] := by
      unfold channelsToSplit
      have h1 : (fourOne 1).inCh = 1 := rfl
      simp [h1, maxPerChannel, argsortDesc, fourOne, scalarLayer]
    simp only [List.foldlM_cons, List.foldlM_nil, splitOne, hch]
    rfl
  rw [e, Option.some.injEq] at h1
  subst h1
  exact ⟨rfl, rfl, rfl, rfl, h2⟩

theorem addConst_noProducts : NoProducts addConstNet := by
  refine ⟨?_, ?_, ?_, ?_⟩
  · intro n hn h1 h2
    simp only [addConstNet, List.length_cons, List.length_nil] at hn
    interval_cases n
    · exact absurd rfl (h2 0)
    · exact ⟨0, rfl⟩
    · exact absurd rfl (h1 (some 1))
    · exact ⟨2, rfl⟩
    · exact ⟨3, rfl⟩
  · intro n h
    rcases Nat.lt_or_ge n 5 with hn | hn
    · interval_cases n <;> simp [addConstNet, nodeAt] at h
    · rw [nodeAt, List.getD_eq_default _ _ (by simpa [addConstNet] using hn)] at h
      cases h
  · intro n s h
    rcases Nat.lt_or_ge n 5 with hn | hn
    · interval_cases n <;> simp [addConstNet, nodeAt] at h
    · rw [nodeAt, List.getD_eq_default _ _ (by simpa [addConstNet] using hn)] at h
      cases h
  · intro n n' m h h'
    rcases Nat.lt_or_ge n 5 with hn | hn
    · rcases Nat.lt_or_ge n' 5 with hn' | hn'
      · interval_cases n <;> interval_cases n' <;> simp [addConstNet, nodeAt] at h h' <;> omega
      · rw [nodeAt, List.getD_eq_default _ _ (by simpa [addConstNet] using hn')] at h'
        cases h'
    · rw [nodeAt, List.getD_eq_default _ _ (by simpa [addConstNet] using hn)] at h
      cases h

example := C45_network_split_input_partial addConstNet addConst_noProducts fourOne 1

/-- C45, which channels are split: for every layer looked at (the sinks if the consuming weights are halved, else the
sources), a channel that is left alone is dominated, in largest absolute weight, by at least `⌈ratio · channels⌉` of the
channels that are split.  The split channels are listed once each, in increasing order. -/
theorem C45_largest_channels (store : ℕ → Layer K) (srcs sinks : List ℕ) (ratio : K) (hratio : 0 ≤ ratio) (splitInput : Bool)
    (N : ℕ) (hN : ∀ m ∈ (if splitInput then sinks else srcs), (if splitInput then (store m).inCh else (store m).outCh) = N)
    (ids : List ℕ) (h : channelsToSplit store srcs sinks ratio splitInput = some ids) :
    ids.Pairwise (· < ·) ∧
    ∀ m ∈ (if splitInput then sinks else srcs), ∀ j < N, j ∉ ids →
      ⌈ratio * (N : K)⌉.toNat ≤ (ids.filter fun i =>
        channelMaxabs (if splitInput then sinkRow (store m) j else srcRow (store m) j)
          ≤ channelMaxabs (if splitInput then sinkRow (store m) i else srcRow (store m) i)).length := by
  unfold channelsToSplit at h
  dsimp only at h
  cases hmod : (if splitInput then sinks else srcs) with
  | nil =>
    rw [hmod] at h
    cases h
  | cons a l =>
    rw [hmod] at h hN
    simp only [Option.some.injEq] at h
    have hNa : (if splitInput then (store a).inCh else (store a).outCh) = N := hN a (by simp)
    have hcast : (if splitInput = true then ((store a).inCh : K) else ((store a).outCh : K)) = (N : K) := by
      rw [← hNa]
      cases splitInput <;> simp
    have hk0 : 0 ≤ ⌈ratio * (N : K)⌉ := Int.ceil_nonneg (mul_nonneg hratio (Nat.cast_nonneg N))
    rw [hNa] at h
    simp only [if_pos hk0] at h
    have hnd : ((a :: l).flatMap fun m =>
      (argsortDesc (maxPerChannel splitInput (store m))).take ⌈ratio * (N : K)⌉.toNat).dedup.Nodup := List.nodup_dedup _
    have hmem : ∀ i, i ∈ ids ↔ ∃ m ∈ a :: l, i ∈ (argsortDesc (maxPerChannel splitInput (store m))).take ⌈ratio * (N : K)⌉.toNat := by
      intro i
      rw [← h, (List.perm_insertionSort _ _).mem_iff, List.mem_dedup, List.mem_flatMap]
    constructor
    · have hs : ids.Pairwise (· ≤ ·) := by
        rw [← h]
        exact List.pairwise_insertionSort _ _
      have hn : ids.Nodup := by
        rw [← h]
        exact (List.perm_insertionSort _ _).nodup_iff.2 hnd
      exact (hs.and hn).imp fun h => lt_of_le_of_ne h.1 h.2
    · intro m hm j hj hjn
      set v := maxPerChannel splitInput (store m) with hv
      have hvlen : v.length = N := by
        rw [hv, ← hN m hm]
        unfold maxPerChannel
        cases splitInput <;> simp
      have hvget : ∀ i < N, v.getD i 0 = channelMaxabs (if splitInput then sinkRow (store m) i else srcRow (store m) i) := by
        intro i hi
        rw [List.getD_eq_getElem _ _ (by rw [hvlen]; exact hi)]
        simp only [hv, maxPerChannel]
        cases splitInput <;> simp
      set L := argsortDesc v with hL
      have hLn : L.Nodup := by
        rw [hL, argsortDesc]
        exact (List.perm_insertionSort _ _).nodup_iff.2 List.nodup_range
      have hLs : L.Pairwise fun a b => v.getD b 0 ≤ v.getD a 0 := by
        have : Std.Total fun a b => v.getD b 0 ≤ v.getD a 0 := ⟨fun a b => le_total _ _⟩
        have : IsTrans ℕ fun a b => v.getD b 0 ≤ v.getD a 0 := ⟨fun a b c h1 h2 => h2.trans h1⟩
        exact List.pairwise_insertionSort _ _
      set k := ⌈ratio * (N : K)⌉.toNat with hk
      have hjL : j ∈ L := mem_argsortDesc.2 (by rw [hvlen]; exact hj)
      have hjt : j ∉ L.take k := fun hc => hjn ((hmem j).2 ⟨m, hm, hc⟩)
      have hjd : j ∈ L.drop k := by
        rw [← List.take_append_drop k L, List.mem_append] at hjL
        exact hjL.resolve_left hjt
      have hlen : (L.take k).length = k := by
        rw [List.length_take]
        have : k < L.length := by
          by_contra hcon
          rw [List.drop_eq_nil_of_le (by omega)] at hjd
          cases hjd
        omega
      have hdom : ∀ i ∈ L.take k, v.getD j 0 ≤ v.getD i 0 := by
        intro i hi
        rw [← List.take_append_drop k L, List.pairwise_append] at hLs
        exact hLs.2.2 i hi j hjd
      have hsub : L.take k ⊆ ids.filter fun i =>
          channelMaxabs (if splitInput then sinkRow (store m) j else srcRow (store m) j)
          ≤ channelMaxabs (if splitInput then sinkRow (store m) i else srcRow (store m) i) := by
        intro i hi
        rw [List.mem_filter]
        refine ⟨(hmem i).2 ⟨m, hm, hi⟩, ?_⟩
        have hiN : i < N := by
          rw [← hvlen]
          exact mem_argsortDesc.1 (List.mem_of_mem_take hi)
        rw [← hvget j hj, ← hvget i hiN]
        exact decide_eq_true (hdom i hi)
      calc k = (L.take k).length := hlen.symm
        _ ≤ _ := (List.subperm_of_subset (hLn.sublist (List.take_sublist k L)) hsub).length_le

/-- Four output channels with weights 1, -9, 3, 9. -/
def fourChannels : ℕ → Layer ℚ := fun _ =>
  ⟨.dense, 4, 1, 1, fun o _ _ => if o = 0 then 1 else if o = 1 then -9 else if o = 2 then 3 else 9, none, fun p _ => some p, id⟩

example : channelsToSplit fourChannels [0] [] (1 / 2) false = some [1, 3] := by decide +kernel

/-- C45 is false of the code for sums with a constant when the producing weights are halved: the constant enters twice. -/
theorem C45_sum_with_constant_changed : ∃ (store' : ℕ → Layer ℝ) (x : ℕ → Signal ℝ),
    channelSplitting 1 false addConstNet fourOne = some store' ∧
      outputs store' addConstNet x ≠ outputs fourOne addConstNet x := by
  have hr : extractRegions addConstNet fourOne = some [⟨[(0, ⟨0, 1, 0⟩)], [(1, ⟨0, 1, 0⟩)]⟩] := rfl
  have hcl : cleanRegions fourOne [([0], [1])] = [([0], [1])] := rfl
  have hch : channelsToSplit fourOne [0] [1] (1 : ℝ) false = some [0] := by
    unfold channelsToSplit
    simp [maxPerChannel, argsortDesc, fourOne, scalarLayer]
  refine ⟨splitRegion [0] [1] [0] false fourOne, fun _ _ _ => 1, ?_, ?_⟩
  · unfold channelSplitting
    rw [hr]
    dsimp only [List.map]
    rw [hcl]
    simp only [List.foldlM_cons, List.foldlM_nil, splitOne, hch]
    rfl
  · intro he
    have := congrArg (List.map fun s : Signal ℝ => s 0 0) he
    simp [outputs, run, evalNode, addConstNet, Node.isOutput, splitRegion, updateStore, splitChannels, splitOutStep,
      splitInStep, fourOne, scalarLayer, Layer.eval, Layer.sample, Layer.reads, Layer.biasAt,
      Finset.sum_range_succ] at this
    norm_num at this

/-- C45 is false of the code for the product of a tensor with itself when the producing weights are halved. -/
theorem C45_square_changed : ∃ (store' : ℕ → Layer ℝ) (x : ℕ → Signal ℝ),
    channelSplitting 1 false squareNet fourOne = some store' ∧
      outputs store' squareNet x ≠ outputs fourOne squareNet x := by
  have hr : extractRegions squareNet fourOne = some [⟨[(0, ⟨0, 1, 0⟩)], [(1, ⟨0, 1, 0⟩)]⟩] := rfl
  have hcl : cleanRegions fourOne [([0], [1])] = [([0], [1])] := rfl
  have hch : channelsToSplit fourOne [0] [1] (1 : ℝ) false = some [0] := by
    unfold channelsToSplit
    simp [maxPerChannel, argsortDesc, fourOne, scalarLayer]
  refine ⟨splitRegion [0] [1] [0] false fourOne, fun _ _ _ => 1, ?_, ?_⟩
  · unfold channelSplitting
    rw [hr]
    dsimp only [List.map]
    rw [hcl]
    simp only [List.foldlM_cons, List.foldlM_nil, splitOne, hch]
    rfl
  · intro he
    have := congrArg (List.map fun s : Signal ℝ => s 0 0) he
    simp [outputs, run, evalNode, squareNet, Node.isOutput, splitRegion, updateStore, splitChannels, splitOutStep,
      splitInStep, fourOne, scalarLayer, Layer.eval, Layer.sample, Layer.reads, Layer.biasAt,
      Finset.sum_range_succ] at this
    norm_num at this

/-- C45 is false of the code for layers used at several places, in both modes: a second use of the producing layer sees
the additional channels. -/
theorem C45_shared_layer_changed : ∃ (store' : ℕ → Layer ℝ) (x : ℕ → Signal ℝ),
    channelSplitting 1 true sharedNet fourOne = some store' ∧
      outputs store' sharedNet x ≠ outputs fourOne sharedNet x := by
  have hr : extractRegions sharedNet fourOne = some [⟨[(0, ⟨0, 1, 0⟩)], [(1, ⟨0, 1, 0⟩)]⟩] := rfl
  have hcl : cleanRegions fourOne [([0], [1])] = [([0], [1])] := rfl
  have hch : channelsToSplit fourOne [0] [1] (1 : ℝ) true = some [0] := by
    unfold channelsToSplit
    simp [maxPerChannel, argsortDesc, fourOne, scalarLayer]
  refine ⟨splitRegion [0] [1] [0] true fourOne, fun _ _ _ => 1, ?_, ?_⟩
  · unfold channelSplitting
    rw [hr]
    dsimp only [List.map]
    rw [hcl]
    simp only [List.foldlM_cons, List.foldlM_nil, splitOne, hch]
    rfl
  · intro he
    have := congrArg (List.map fun s : Signal ℝ => s 1 0) he
    simp [outputs, run, evalNode, sharedNet, Node.isOutput, splitRegion, updateStore, splitChannels, splitOutStep,
      splitInStep, fourOne, scalarLayer, Layer.eval, Layer.sample, Layer.reads, Layer.biasAt,
      Finset.sum_range_succ] at this

/-- A gated layer: `conv0` times an operation applied to `conv2`, then `conv1`. -/
noncomputable def gatedNet : Graph ℝ :=
  [⟨.input 0, []⟩, ⟨.module 0, [0]⟩, ⟨.module 2, [0]⟩, ⟨.other id, [2]⟩, ⟨.mul, [1, 3]⟩, ⟨.module 1, [4]⟩, ⟨.output, [5]⟩]

/-- Two channels everywhere. -/
noncomputable def gatedStore : ℕ → Layer ℝ := fun _ => ⟨.dense, 2, 2, 1, fun _ _ _ => 1, none, fun p _ => some p, id⟩

/-- C45 is false of the code for products with a tensor from outside of the region, in both modes: one of the operands of the
product gets more channels, the other does not, and the network can no longer run. -/
theorem C45_gate_mismatch (splitInput : Bool) : ∃ store' : ℕ → Layer ℝ,
    channelSplitting 1 splitInput gatedNet gatedStore = some store' ∧
      (gatedStore 0).outCh = (gatedStore 2).outCh ∧ (store' 0).outCh ≠ (store' 2).outCh := by
  have hr : extractRegions gatedNet gatedStore = some [⟨[(0, ⟨0, 2, 0⟩)], [(1, ⟨0, 2, 0⟩)]⟩] := rfl
  have hcl : cleanRegions gatedStore [([0], [1])] = [([0], [1])] := rfl
  obtain ⟨ids, hch, hne⟩ : ∃ ids, channelsToSplit gatedStore [0] [1] (1 : ℝ) splitInput = some ids ∧ ids ≠ [] := by
    have h0 : (0 : ℕ) ∈ argsortDesc (maxPerChannel splitInput (gatedStore 0)) :=
      mem_argsortDesc.2 (by cases splitInput <;> simp [maxPerChannel, gatedStore])
    have hl : (argsortDesc (maxPerChannel splitInput (gatedStore 0))).length = 2 := by
      unfold argsortDesc
      rw [(List.perm_insertionSort _ _).length_eq]
      cases splitInput <;> simp [maxPerChannel, gatedStore]
    unfold channelsToSplit
    cases splitInput
    · refine ⟨_, rfl, ?_⟩
      apply List.ne_nil_of_mem (a := 0)
      rw [(List.perm_insertionSort _ _).mem_iff, List.mem_dedup, List.mem_flatMap]
      refine ⟨0, by simp, ?_⟩
      have : ⌈(1 : ℝ) * ((gatedStore 0).outCh : ℝ)⌉ = 2 := by simp [gatedStore]
      simp only [Bool.false_eq_true, if_false, this]
      simp only [show (0 : ℤ) ≤ 2 by norm_num, if_true, show (2 : ℤ).toNat = 2 from rfl]
      rw [← hl, List.take_length]
      exact h0
    · refine ⟨_, rfl, ?_⟩
      apply List.ne_nil_of_mem (a := 0)
      rw [(List.perm_insertionSort _ _).mem_iff, List.mem_dedup, List.mem_flatMap]
      refine ⟨1, by simp, ?_⟩
      have : ⌈(1 : ℝ) * ((gatedStore 1).inCh : ℝ)⌉ = 2 := by simp [gatedStore]
      simp only [if_true, this]
      simp only [show (0 : ℤ) ≤ 2 by norm_num, if_true, show (2 : ℤ).toNat = 2 from rfl]
      have e : (gatedStore 1) = gatedStore 0 := rfl
      rw [e, ← hl, List.take_length]
      exact h0
  refine ⟨splitRegion [0] [1] ids splitInput gatedStore, ?_, rfl, ?_⟩
  · unfold channelSplitting
    rw [hr]
    dsimp only [List.map]
    rw [hcl]
    simp only [List.foldlM_cons, List.foldlM_nil, splitOne, hch]
    rfl
  · have h1 := (C45_channel_counts gatedStore [0] [1] (by simp) (by simp) ids splitInput 0).1
    have h2 := (C45_channel_counts gatedStore [0] [1] (by simp) (by simp) ids splitInput 2).1
    rw [h1, h2]
    have : 0 < ids.length := List.length_pos_of_ne_nil hne
    simp [gatedStore]
    exact hne

end Brevitas.Props
