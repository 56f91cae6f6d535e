import Verif.Lemmas.RemoveStochastic
import Verif.Lemmas.MeanPool
import Mathlib.Data.Rat.Floor
import Mathlib.Tactic.NormNum

/-!
# C122: the passes run before quantisation that take nodes out or exchange them keep what the model computes

`removeStochastic` is `RemoveStochasticModules`, `rewrite` is `MeanMethodToAdaptiveAvgPool2d`; both run on every model handed to
`preprocess_for_quantize`.
-/

namespace Brevitas.Props

open Brevitas Brevitas.Standardize
open Brevitas.Fx (Arg)
open _root_.Spec (Ordered PassesOn ReadDirectly spatialMean)

/-- C122, stochastic depth: in an ordered graph where every node called `…stochastic_depth…` passes its input on (as it does in evaluation
mode) and is read once, by one node, as a positional argument, the pass succeeds, takes out exactly these nodes, and the graph it returns
gives every remaining node the value it had, for all inputs; it raises only if the original does. -/
theorem C122_stochastic {V : Type*} (S : Sem V) (mods : Mods V) (stoch : ℕ → Bool) (g : List Node) (hord : Ordered [] g)
    (h : ∀ n ∈ g, stoch n.name = true → PassesOn S mods n ∧ ReadDirectly g n.name) :
    ∃ g', removeStochastic stoch g = some g' ∧ Ordered [] g' ∧
      g'.map Node.name = (g.map Node.name).filter (fun k => !stoch k) ∧
      (∀ env e, exec S mods g env = some e → ∃ e', exec S mods g' env = some e' ∧ ∀ m ∈ g'.map Node.name, e' m = e m) ∧
      ∀ env, exec S mods g env = none → exec S mods g' env = none := by
  obtain ⟨g', h1, h2, h3, h4, h5⟩ := removeStochasticFrom_values S mods stoch g [] hord h
  exact ⟨g', h1, h2, by simpa using h3, h4, h5⟩

/-! A residual block on integers: input 0, `stochastic_depth` 1 and 2 in a chain after it, their sum with the input 3, output 4. -/

/-- The meaning of the nodes of the examples: `fn 0` adds all its arguments, modules are given by name. -/
def exampleSem : Sem ℤ where
  input := fun _ => some 5
  attr := fun _ => none
  fn := fun _ as => some ((as.map fun a => match a with | .ref v => v | _ => 0).sum)
  method := fun _ _ => none
  output := fun as => match as with | [.ref v] => some v | _ => none

/-- `sd` returns its input, `double` doubles it. -/
def exampleMods : Mods ℤ :=
  [("sd", ⟨false, fun as => match as with | .ref v :: _ => some v | _ => none⟩),
    ("double", ⟨true, fun as => match as with | .ref v :: _ => some (2 * v) | _ => none⟩)]

def exampleBlock : List Node :=
  [⟨0, .placeholder, "x", []⟩, ⟨1, .callModule, "sd", [.ref 0]⟩, ⟨2, .callModule, "sd", [.ref 1]⟩, ⟨3, .callFunction 0, "", [.ref 0, .ref 2]⟩,
    ⟨4, .output, "output", [.ref 3]⟩]

def exampleStoch (k : ℕ) : Bool := k == 1 || k == 2

example : Ordered [] exampleBlock ∧
    (∀ n ∈ exampleBlock, exampleStoch n.name = true → PassesOn exampleSem exampleMods n ∧ ReadDirectly exampleBlock n.name) := by
  constructor
  · simp [exampleBlock, Ordered, Arg.refsList, Arg.refs]
  · intro n hn hs
    simp only [exampleBlock, List.mem_cons, List.not_mem_nil, or_false] at hn
    rcases hn with rfl | rfl | rfl | rfl | rfl
    · simp [exampleStoch] at hs
    · refine ⟨⟨0, [], rfl, rfl, fun v e => rfl⟩, ⟨2, .callModule, "sd", [.ref 1]⟩, by simp [exampleBlock], ?_, by simp, by decide⟩
      intro w hw
      simp only [exampleBlock, List.mem_cons, List.not_mem_nil, or_false] at hw
      rcases hw with rfl | rfl | rfl | rfl | rfl <;> simp [Arg.refsList, Arg.refs]
    · refine ⟨⟨1, [], rfl, rfl, fun v e => rfl⟩, ⟨3, .callFunction 0, "", [.ref 0, .ref 2]⟩, by simp [exampleBlock], ?_, by simp, by decide⟩
      intro w hw
      simp only [exampleBlock, List.mem_cons, List.not_mem_nil, or_false] at hw
      rcases hw with rfl | rfl | rfl | rfl | rfl <;> simp [Arg.refsList, Arg.refs]
    · simp [exampleStoch] at hs
    · simp [exampleStoch] at hs

example : (exec exampleSem exampleMods exampleBlock fun _ => 0).map (fun e => e 4) = some 10 := by decide +kernel

example : ((removeStochastic exampleStoch exampleBlock).bind fun g => (exec exampleSem exampleMods g fun _ => 0).map fun e => e 4) = some 10 := by
  decide +kernel

/-- Not every graph: a node that reads the same stochastic node twice loses one of its arguments, so `add(d, d)` becomes `add(x)`. -/
theorem C122_read_twice_wrong :
    let g : List Node := [⟨0, .placeholder, "x", []⟩, ⟨1, .callModule, "sd", [.ref 0]⟩, ⟨2, .callFunction 0, "", [.ref 1, .ref 1]⟩,
      ⟨3, .output, "output", [.ref 2]⟩]
    (exec exampleSem exampleMods g fun _ => 0).map (fun e => e 3) = some 10 ∧
      ((removeStochastic (fun k => k == 1) g).bind fun g' => (exec exampleSem exampleMods g' fun _ => 0).map fun e => e 3) = some 5 := by
  decide +kernel

/-- The pass goes by the name of the node: a layer of the model that is only called so is taken out as well, and the result changes. -/
theorem C122_by_name_wrong :
    let g : List Node := [⟨0, .placeholder, "x", []⟩, ⟨1, .callModule, "double", [.ref 0]⟩, ⟨2, .callFunction 0, "", [.ref 0, .ref 1]⟩,
      ⟨3, .output, "output", [.ref 2]⟩]
    (exec exampleSem exampleMods g fun _ => 0).map (fun e => e 3) = some 15 ∧
      ((removeStochastic (fun k => k == 1) g).bind fun g' => (exec exampleSem exampleMods g' fun _ => 0).map fun e => e 3) = some 10 := by
  decide +kernel

/-- A stochastic node with two readers, or read only inside a tuple or as a keyword argument, makes the pass raise, although the graph is
ordered, the node passes its input on and the graph runs. -/
theorem C122_other_readers_raise :
    let two : List Node := [⟨0, .placeholder, "x", []⟩, ⟨1, .callModule, "sd", [.ref 0]⟩, ⟨2, .callModule, "double", [.ref 1]⟩,
      ⟨3, .callFunction 0, "", [.ref 1, .ref 2]⟩, ⟨4, .output, "output", [.ref 3]⟩]
    let tuple : List Node := [⟨0, .placeholder, "x", []⟩, ⟨1, .callModule, "sd", [.ref 0]⟩, ⟨2, .callFunction 0, "", [.seq [.ref 1]]⟩,
      ⟨3, .output, "output", [.ref 2]⟩]
    ((exec exampleSem exampleMods two fun _ => 0).map fun e => e 4) = some 15 ∧ (removeStochastic (fun k => k == 1) two).isNone = true ∧
      (exec exampleSem exampleMods tuple fun _ => 0).isSome = true ∧ (removeStochastic (fun k => k == 1) tuple).isNone = true := by
  decide +kernel

section Mean

open Brevitas.MeanPool

variable {K : Type*} [Field K]

/-- C122, spatial means: whatever the arguments of a call of `mean` that is rewritten, if the call and the nodes that take its place both
return on a batch of images they return tensors of the same shape with the same entries. -/
theorem C122_mean (args a : List Val) (kwargs k : List (String × Val)) (hr : rewrite args kwargs = some (.pooled a k))
    (t y z : NdTensor K) (hy : runMean args kwargs t = some y) (hz : runPooled a k t = some z) :
    z.shape = y.shape ∧ ∀ idx, NdTensor.InBounds y.shape idx → z.data idx = y.data idx := by
  unfold runPooled at hz
  by_cases hak : a = [.node] ∧ k = []
  swap
  · rw [if_neg hak] at hz; exact nomatch hz
  rw [if_pos hak] at hz
  obtain ⟨ha, hk⟩ := hak
  subst ha hk
  unfold rewrite at hr
  by_cases hm : matchNode args kwargs = true
  swap
  · rw [if_neg hm] at hr; simp at hr
  rw [if_pos hm] at hr
  simp only [Option.bind_eq_some_iff] at hr
  obtain ⟨r, hr1, hr2⟩ := hr
  split_ifs at hr2
  simp only [Option.some.injEq, Outcome.pooled.injEq] at hr2
  have hdim : kwargs.lookup "dim" = none := by
    by_contra hc
    unfold moveArgs at hr1
    rw [if_pos hc] at hr1
    exact nomatch hr1
  have hin : Val.dims [2, 3] ∈ args := by
    unfold matchNode at hm
    rw [hdim] at hm
    simp only [Bool.and_eq_true, Bool.or_eq_true, decide_eq_true_eq] at hm
    rcases hm.1 with h | h
    · exact h
    · simp at h
  unfold moveArgs at hr1
  rw [if_neg (by simp [hdim]), if_pos hin, Option.some.injEq] at hr1
  rw [← hr1] at hr2
  obtain ⟨hargs, hkw⟩ := hr2
  dsimp only at hargs hkw
  subst hkw
  -- the original call: the tensor, the dimensions, and nothing else
  have hform : spatialMean false t = some y := by
    unfold runMean at hy
    match args, hargs, hy with
    | .node :: pos, hargs, hy =>
      dsimp only at hy
      split_ifs at hy with hlen
      rw [List.filter_cons, if_pos (by decide)] at hargs
      have hpos : ∀ v ∈ pos, v = Val.dims [2, 3] := by
        have h2 := (List.cons.inj hargs).2
        rw [List.filter_eq_nil_iff] at h2
        intro v hv
        have := h2 v hv
        simpa using this
      match pos, hpos, hlen, hy with
      | [], _, _, hy => simp at hy
      | [d], hpos, _, hy =>
        have := hpos d (by simp)
        subst this
        simpa using hy
      | [d, d'], hpos, _, hy =>
        have h1 := hpos d (by simp)
        have h2 := hpos d' (by simp)
        subst h1 h2
        simp at hy
      | d :: d' :: d'' :: r, _, hlen, _ => simp at hlen
  -- images
  have hshape : ∃ b c h w, t.shape = [b, c, h, w] := by
    unfold globalPool at hz
    match hs : t.shape with
    | [b, c, h, w] => exact ⟨b, c, h, w, rfl⟩
    | [] => rw [hs] at hz; exact nomatch hz
    | [_] => rw [hs] at hz; exact nomatch hz
    | [_, _] => rw [hs] at hz; exact nomatch hz
    | [_, _, _] => rw [hs] at hz; exact nomatch hz
    | _ :: _ :: _ :: _ :: _ :: _ => rw [hs] at hz; exact nomatch hz
  obtain ⟨b, c, h, w, hs⟩ := hshape
  obtain ⟨hz1, hz2⟩ := pool_flatten t b c h w hs z hz
  unfold spatialMean at hform
  rw [hs] at hform
  simp only [Bool.false_eq_true, if_false, Option.some.injEq] at hform
  subst hform
  refine ⟨hz1, fun idx hidx => ?_⟩
  match idx, hidx with
  | [i, j], hidx =>
    unfold NdTensor.InBounds at hidx
    simp only [List.forall₂_cons, List.Forall₂.nil, and_true] at hidx
    rw [hz2 i j hidx.1 hidx.2]
    simp
  | [], hidx => exact nomatch hidx
  | [_], hidx => simp [NdTensor.InBounds] at hidx
  | _ :: _ :: _ :: _, hidx => simp [NdTensor.InBounds] at hidx

/-- C122, spatial means: `x.mean((2, 3))` is rewritten, and what takes its place returns on every non-empty batch of non-empty images. -/
theorem C122_mean_runs (t : NdTensor K) (b c h w : ℕ) (hs : t.shape = [b, c, h, w]) (hb : 0 < b) (hc : 0 < c) (hh : 0 < h) (hw : 0 < w) :
    ∃ a k z, rewrite [.node, .dims [2, 3]] [] = some (.pooled a k) ∧ runPooled a k t = some z ∧ z.shape = [b, c] ∧
      ∀ i j, i < b → j < c →
        z.data [i, j] = (∑ y ∈ Finset.range h, ∑ x ∈ Finset.range w, t.data [i, j, y, x]) / ((h : K) * (w : K)) := by
  have hrun : ∃ z, (globalPool t).bind flattenBatch = some z := by
    unfold globalPool
    rw [hs]
    dsimp only
    rw [if_pos ⟨hc, hh, hw⟩, Option.bind_some]
    unfold flattenBatch
    dsimp only
    rw [if_neg (by omega)]
    have hprod : [b, c, 1, 1].prod / b = c := by
      simp only [List.prod_cons, List.prod_nil, mul_one]
      exact Nat.mul_div_cancel_left c hb
    rw [hprod]
    unfold NdTensor.reshape
    rw [if_pos (by simp)]
    exact ⟨_, rfl⟩
  obtain ⟨z, hz⟩ := hrun
  refine ⟨[.node], [], z, by decide +kernel, ?_, ?_⟩
  · unfold runPooled
    rw [if_pos ⟨rfl, rfl⟩]
    exact hz
  · exact pool_flatten t b c h w hs z hz

/-- A batch of one image with one channel of two rows and one column. -/
def exampleImage : NdTensor ℚ := ⟨[1, 1, 2, 1], fun idx => if idx = [0, 0, 0, 0] then 3 else 5⟩

example : ((runPooled [.node] [] exampleImage).map fun z => (z.shape, z.data [0, 0])) = some ([1, 1], 4) ∧
    ((runMean [.node, .dims [2, 3]] [] exampleImage).map fun z => (z.shape, z.data [0, 0])) = some ([1, 1], 4) := by
  decide +kernel

/-- The dimensions passed by keyword: the call is matched, and rewriting it raises, for every tensor. -/
theorem C122_mean_keyword_raises (kwargs : List (String × Val)) (hk : kwargs.lookup "keepdim" = none) :
    rewrite [.node] (("dim", .dims [2, 3]) :: kwargs) = none ∧
      ((runMean [.node] [("dim", .dims [2, 3])] exampleImage).map fun z => (z.shape, z.data [0, 0])) = some ([1, 1], 4) := by
  constructor
  · unfold rewrite
    have h1 : (("dim", Val.dims [2, 3]) :: kwargs).lookup "dim" = some (.dims [2, 3]) := by simp
    have h2 : (("dim", Val.dims [2, 3]) :: kwargs).lookup "keepdim" = none := by simpa [List.lookup] using hk
    rw [if_pos (by unfold matchNode; rw [h1, h2]; simp)]
    unfold moveArgs
    rw [if_pos (by rw [h1]; simp)]
    rfl
  · decide +kernel

/-- `keepdim` passed by position is not looked at, and `keepdim=False` is left on the node: both calls are rewritten into calls of the
module that raise. So is a mean over a tensor with five dimensions, and over an empty batch. -/
theorem C122_mean_rewritten_raises :
    rewrite [.node, .dims [2, 3], .flag true] [] = some (.pooled [.node, .flag true] []) ∧
      (runMean [.node, .dims [2, 3], .flag true] [] exampleImage).isSome = true ∧
      (runPooled [.node, .flag true] [] exampleImage).isNone = true ∧
      rewrite [.node, .dims [2, 3]] [("keepdim", .flag false)] = some (.pooled [.node] [("keepdim", .flag false)]) ∧
      (runMean [.node, .dims [2, 3]] [("keepdim", .flag false)] exampleImage).isSome = true ∧
      (runPooled [.node] [("keepdim", .flag false)] exampleImage).isNone = true ∧
      (runMean [.node, .dims [2, 3]] [] (⟨[1, 1, 1, 1, 1], fun _ => 0⟩ : NdTensor ℚ)).isSome = true ∧
      (runPooled [.node] [] (⟨[1, 1, 1, 1, 1], fun _ => 0⟩ : NdTensor ℚ)).isNone = true ∧
      (runMean [.node, .dims [2, 3]] [] (⟨[0, 1, 1, 1], fun _ => 0⟩ : NdTensor ℚ)).isSome = true ∧
      (runPooled [.node] [] (⟨[0, 1, 1, 1], fun _ => 0⟩ : NdTensor ℚ)).isNone = true := by
  decide +kernel

end Mean

end Brevitas.Props
