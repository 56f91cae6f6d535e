import Verif.Model.BitWidthLoss

/-!
# C55: weighted bit-width losses
-/

set_option linter.unusedSectionVars false

namespace Brevitas.Props

open Brevitas

variable {K : Type*} [Field K] [LinearOrder K] [IsStrictOrderedRing K]

/-- The outputs seen since the last reset. -/
def sinceReset {α : Type*} : List (Option α) → List α
  | [] => []
  | some a :: es => if es.all Option.isSome then a :: sinceReset es else sinceReset es
  | none :: es => sinceReset es

/-- The weight of an output: number of elements of a weight; number of elements per sample of an activation; operations per sample of a
layer. -/
def outputWeight : LossKind → HookedOutput K → ℕ
  | .weightBySize, out => out.size.prod
  | .actBySize, out => out.size.tail.prod
  | .outputByOps, out => out.size.tail.prod * out.perElemOps

/-- The quantised outputs with their weights. -/
def weightedOutputs (kind : LossKind) (outs : List (HookedOutput K)) : List (ℕ × K) :=
  outs.filterMap fun out => out.bitWidth.map fun b => (outputWeight kind out, b)

/-- The weighted mean. -/
def weightedMean (wbs : List (ℕ × K)) : K :=
  (wbs.map fun wb => (wb.1 : K) * wb.2).sum / ((wbs.map Prod.fst).sum : ℕ)

private theorem foldl_mul (l : List ℕ) (a : ℕ) : l.foldl (· * ·) a = a * l.prod := by
  induction l generalizing a with
  | nil => simp
  | cons x l ih => simp [ih, mul_assoc]

/-- One over the unit in which operations are counted. -/
private def unitOf : LossKind → K
  | .outputByOps => 1 / mega
  | _ => 1

private theorem unitOf_pos (kind : LossKind) : 0 < (unitOf kind : K) := by
  cases kind <;> norm_num [unitOf, mega]

private def Inv (kind : LossKind) (outs : List (HookedOutput K)) (st : BitWidthWeighted K) : Prop :=
  st.weighted = (weightedOutputs kind outs).map (fun wb => unitOf kind * ((wb.1 : K) * wb.2)) ∧
  st.total = unitOf kind * (((weightedOutputs kind outs).map Prod.fst).sum : ℕ)

private theorem hook_inv (kind : LossKind) (outs : List (HookedOutput K)) (st st' : BitWidthWeighted K) (out : HookedOutput K)
    (h : Inv kind outs st) (hs : st.hook kind out = some st') : Inv kind (outs ++ [out]) st' := by
  obtain ⟨h1, h2⟩ := h
  obtain ⟨sz, bw, pe⟩ := out
  cases bw with
  | none =>
    cases kind <;> simp [BitWidthWeighted.hook] at hs
    subst hs
    constructor
    · rw [h1]; simp [weightedOutputs]
    · rw [h2]; simp [weightedOutputs]
  | some b =>
    cases kind <;> simp only [BitWidthWeighted.hook, Option.map_some, Option.some.injEq] at hs <;> subst hs <;> constructor <;>
      simp only [h1, h2, foldl_mul, weightedOutputs, List.filterMap_append, List.filterMap_cons, List.filterMap_nil, Option.map_some,
        List.map_append, List.map_cons, List.map_nil, outputWeight, unitOf, List.sum_append, List.sum_singleton] <;>
      push_cast <;> first | ring | (congr 1; simp only [List.cons.injEq, and_true]; ring) | skip

private theorem foldlM_inv (kind : LossKind) (es : List (Option (HookedOutput K))) : ∀ (st st' : BitWidthWeighted K) (outs),
    Inv kind outs st →
    es.foldlM (fun st e => match e with
      | some out => st.hook kind out
      | none => some .zero) st = some st' →
    Inv kind (if es.all Option.isSome then outs ++ sinceReset es else sinceReset es) st' := by
  induction es with
  | nil => intro st st' outs h hs; simp at hs; simpa [sinceReset, ← hs] using h
  | cons e es ih =>
    intro st st' outs h hs
    rw [List.foldlM_cons] at hs
    obtain ⟨st1, h1, h2⟩ := Option.bind_eq_some_iff.mp hs
    cases e with
    | none =>
      simp only [Option.some.injEq] at h1
      subst h1
      have := ih .zero st' [] ⟨by simp [BitWidthWeighted.zero, weightedOutputs], by simp [BitWidthWeighted.zero, weightedOutputs]⟩ h2
      simpa [sinceReset] using this
    | some out =>
      have := ih st1 st' (outs ++ [out]) (hook_inv kind outs st st1 out h h1) h2
      by_cases hall : es.all Option.isSome = true
      · simp only [hall, if_true] at this
        simpa [sinceReset, hall] using this
      · simp only [hall] at this
        simpa [sinceReset, hall] using this

private theorem run_inv' (kind : LossKind) (es : List (Option (HookedOutput K))) (st : BitWidthWeighted K)
    (hr : BitWidthWeighted.run kind es = some st) : Inv kind (sinceReset es) st := by
  have := foldlM_inv kind es .zero st [] ⟨by simp [BitWidthWeighted.zero, weightedOutputs], by simp [BitWidthWeighted.zero, weightedOutputs]⟩ hr
  simpa using this

/-- C55: over every history of outputs and resets, the loss is the weighted mean of the bit widths seen since the last reset, with sizes
(or numbers of operations) as weights. The unit in which operations are counted does not matter. -/
theorem C55_average (kind : LossKind) (es : List (Option (HookedOutput K))) (st : BitWidthWeighted K)
    (hr : BitWidthWeighted.run kind es = some st) (v : K) (hv : st.retrieve = some v) :
    v = weightedMean (weightedOutputs kind (sinceReset es)) := by
  obtain ⟨h1, h2⟩ := run_inv' kind es st hr
  unfold BitWidthWeighted.retrieve at hv
  split_ifs at hv with hc
  rw [Option.some.injEq] at hv
  rw [← hv, h1, h2, List.sum_map_mul_left, weightedMean, mul_div_mul_left _ _ (unitOf_pos kind).ne']

/-- C55: an exception is raised exactly when there is nothing to average: no quantised output since the last reset, or only empty ones. -/
theorem C55_raises_iff (kind : LossKind) (es : List (Option (HookedOutput K))) (st : BitWidthWeighted K)
    (hr : BitWidthWeighted.run kind es = some st) :
    st.retrieve = none ↔ ∀ wb ∈ weightedOutputs kind (sinceReset es), wb.1 = 0 := by
  obtain ⟨h1, h2⟩ := run_inv' kind es st hr
  have hsum : (((weightedOutputs kind (sinceReset es)).map Prod.fst).sum = 0) ↔
      ∀ wb ∈ weightedOutputs kind (sinceReset es), wb.1 = 0 := by
    rw [List.sum_eq_zero_iff]; simp
  unfold BitWidthWeighted.retrieve
  rw [← hsum]
  have ht : st.total = 0 ↔ ((weightedOutputs kind (sinceReset es)).map Prod.fst).sum = 0 := by
    rw [h2, mul_eq_zero, Nat.cast_eq_zero]
    simp [(unitOf_pos (K := K) kind).ne']
  rw [← ht]
  constructor
  · intro h
    by_contra h0
    have hne : st.weighted ≠ [] := by
      intro he
      rw [h1, List.map_eq_nil_iff] at he
      apply h0
      rw [ht, he]; rfl
    simp [h0, hne] at h
  · intro h; simp [h]

/-- C55: the loss lies between the smallest and the largest bit width seen since the last reset. -/
theorem C55_between (kind : LossKind) (es : List (Option (HookedOutput K))) (st : BitWidthWeighted K)
    (hr : BitWidthWeighted.run kind es = some st) (v : K) (hv : st.retrieve = some v) (lo hi : K)
    (hb : ∀ out ∈ sinceReset es, ∀ b, out.bitWidth = some b → lo ≤ b ∧ b ≤ hi) : lo ≤ v ∧ v ≤ hi := by
  have hne : st.retrieve ≠ none := by rw [hv]; simp
  rw [ne_eq, C55_raises_iff kind es st hr] at hne
  rw [C55_average kind es st hr v hv]
  obtain ⟨wbs, hw⟩ : ∃ wbs, wbs = weightedOutputs kind (sinceReset es) := ⟨_, rfl⟩
  have hb' : ∀ wb ∈ wbs, lo ≤ wb.2 ∧ wb.2 ≤ hi := by
    intro wb hwb
    rw [hw, weightedOutputs, List.mem_filterMap] at hwb
    obtain ⟨out, ho, he⟩ := hwb
    obtain ⟨b, hbb, rfl⟩ := Option.map_eq_some_iff.mp he
    exact hb out ho b hbb
  rw [← hw] at hne ⊢
  have hpos : 0 < (wbs.map Prod.fst).sum := by
    rw [Nat.pos_iff_ne_zero, ne_eq, List.sum_eq_zero_iff]
    simpa using hne
  have hposK : (0 : K) < ((wbs.map Prod.fst).sum : ℕ) := by exact_mod_cast hpos
  have hbound : lo * ((wbs.map Prod.fst).sum : ℕ) ≤ (wbs.map fun wb => (wb.1 : K) * wb.2).sum ∧
      (wbs.map fun wb => (wb.1 : K) * wb.2).sum ≤ hi * ((wbs.map Prod.fst).sum : ℕ) := by
    clear hw hne hpos hposK
    induction wbs with
    | nil => simp
    | cons wb wbs ih =>
      obtain ⟨i1, i2⟩ := ih fun w hw => hb' w (by simp [hw])
      obtain ⟨j1, j2⟩ := hb' wb (by simp)
      have hw0 : (0 : K) ≤ (wb.1 : K) := Nat.cast_nonneg _
      simp only [List.map_cons, List.sum_cons, Nat.cast_add]
      constructor <;> nlinarith
  rw [weightedMean]
  exact ⟨(le_div_iff₀ hposK).mpr hbound.1, (div_le_iff₀ hposK).mpr hbound.2⟩

/-- C55: retrieved as a list, the loss has one entry per quantised output, its share of the weighted mean; the entries add up to it. -/
theorem C55_parts (kind : LossKind) (es : List (Option (HookedOutput K))) (st : BitWidthWeighted K)
    (hr : BitWidthWeighted.run kind es = some st) (parts : List K) (hp : st.retrieveList = some parts) :
    st.retrieve = some parts.sum ∧ parts.length = (weightedOutputs kind (sinceReset es)).length ∧
    parts = (weightedOutputs kind (sinceReset es)).map fun wb =>
      (wb.1 : K) * wb.2 / (((weightedOutputs kind (sinceReset es)).map Prod.fst).sum : ℕ) := by
  obtain ⟨h1, h2⟩ := run_inv' kind es st hr
  unfold BitWidthWeighted.retrieveList at hp
  split_ifs at hp with hc
  rw [Option.some.injEq] at hp
  unfold BitWidthWeighted.retrieve
  rw [if_pos hc, ← hp]
  refine ⟨?_, by rw [h1]; simp, ?_⟩
  · congr 1
    simp only [div_eq_mul_inv]
    rw [List.sum_map_mul_right]; simp
  · rw [h1, h2, List.map_map]
    apply List.map_congr_left
    intro wb _
    simp only [Function.comp]
    rw [mul_div_mul_left _ _ (unitOf_pos kind).ne']

/-- C55: a reset forgets everything before it. -/
theorem C55_reset (kind : LossKind) (before after_ : List (Option (HookedOutput K))) (st0 : BitWidthWeighted K)
    (h0 : BitWidthWeighted.run kind before = some st0) :
    BitWidthWeighted.run kind (before ++ none :: after_) = BitWidthWeighted.run kind after_ := by
  unfold BitWidthWeighted.run at h0 ⊢
  rw [List.foldlM_append, h0]
  rfl

/-- C55: the activation and layer losses do not depend on batch sizes. -/
theorem C55_batch_independent (kind : LossKind) (hk : kind ≠ .weightBySize) (st : BitWidthWeighted K) (n n' : ℕ) (sizes : List ℕ)
    (b : Option K) (ops : ℕ) : st.hook kind ⟨n :: sizes, b, ops⟩ = st.hook kind ⟨n' :: sizes, b, ops⟩ := by
  cases kind
  · exact absurd rfl hk
  · rfl
  · rfl

/-- C55: a hooked quantiser whose output is a plain tensor, because quantisation is disabled, breaks the weight and activation losses; the
layer loss skips it. -/
theorem C55_plain_output (kind : LossKind) (st : BitWidthWeighted K) (size : List ℕ) (ops : ℕ) :
    st.hook kind ⟨size, none, ops⟩ = if kind = .outputByOps then some st else none := by
  cases kind <;> rfl

/-- C55 (layers): the operations per output element of a convolution or linear layer are two per weight element of an output channel. The
weight has shape `out, in / groups, kernel` or `out, in`. -/
theorem C55_per_elem_ops (kernel : List ℕ) (out inChannels groups : ℕ) (hout : 0 < out) :
    convPerElemOps kernel inChannels groups = 2 * ((out :: inChannels / groups :: kernel).prod / out) ∧
    linearPerElemOps inChannels = 2 * ([out, inChannels].prod / out) := by
  constructor
  · rw [convPerElemOps, foldl_mul, List.prod_cons, Nat.mul_div_cancel_left _ hout, List.prod_cons]; ring
  · rw [linearPerElemOps, List.prod_cons, Nat.mul_div_cancel_left _ hout]; simp

/-- C55 fails if the scale of an activation quantiser is read between two forward passes: reading calls the quantiser with a scalar, whose
output counts as one more element (`retrieve_attribute`, src/brevitas/proxy/runtime_quant.py:110-125). -/
theorem C55_scale_read_counts :
    ((BitWidthWeighted.run .actBySize [some ⟨[8, 3], some (4 : ℚ), 0⟩, some ⟨[8, 1], some (8 : ℚ), 0⟩]).bind (·.retrieve)) = some 5 ∧
    ((BitWidthWeighted.run .actBySize
      [some ⟨[8, 3], some (4 : ℚ), 0⟩, some ⟨[8, 1], some (8 : ℚ), 0⟩, some ⟨[], some (8 : ℚ), 0⟩]).bind (·.retrieve)) = some (28 / 5) := by
  decide +kernel

example : ((BitWidthWeighted.run .outputByOps
    [some ⟨[1, 5], some (2 : ℚ), 7⟩, none, some ⟨[8, 2, 2], some (4 : ℚ), 3⟩, some ⟨[8, 4], none, 3⟩, some ⟨[8, 4], some (8 : ℚ), 9⟩]).bind
      (·.retrieve)) = some 7 := by decide +kernel

end Brevitas.Props
