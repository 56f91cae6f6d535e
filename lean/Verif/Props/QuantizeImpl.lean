import Verif.Model.QuantizeImpl
import Verif.Props.IntQuant
import Mathlib.Data.List.GetD

/-!
# C73, C74: the quantisers that graph quantisation inserts
-/

set_option linter.unusedSectionVars false

namespace Brevitas.Props

open Brevitas Brevitas.Quantize

/-! ## Vocabulary -/

section Vocabulary
variable {K : Type*}

mutual
/-- Something holds of every node that a node depends on, and of the node itself. -/
def EveryNode (P : Op K → Prop) : Expr K → Prop
  | .node op args => P op ∧ EveryNodeArgs P args
/-- The same for a list of nodes. -/
def EveryNodeArgs (P : Op K → Prop) : List (Expr K) → Prop
  | [] => True
  | e :: es => EveryNode P e ∧ EveryNodeArgs P es
end

/-- No value is negative. -/
def NonNeg [Zero K] [LE K] (v : List K) : Prop := ∀ x ∈ v, 0 ≤ x

/-- What makes looking at the signs of quantisers enough: network inputs, buffers and added numbers are not negative,
unsigned activations and modules said to preserve the sign do what they say, and a quantised module whose input quantiser
is not declared signed returns no negative value. -/
def SignsAsDeclared [Zero K] [LE K] (inputs : ℕ → List K) : Op K → Prop
  | .placeholder n => NonNeg (inputs n)
  | .getAttr v => NonNeg v
  | .callModule m =>
    (m.unsignedAct = true → ∀ vs, NonNeg (m.fn vs)) ∧
    (m.signPreserving = true → ∀ vs, (∀ v ∈ vs, NonNeg v) → NonNeg (m.fn vs)) ∧
    (∀ s, m.inputQuant = some s → s ≠ some true → ∀ vs, NonNeg (m.fn vs))
  | .add c => ∀ x ∈ c, 0 ≤ x
  | _ => True

end Vocabulary

/-! ## C73 -/

section Unsigned
variable {K : Type*} [Field K] [LinearOrder K] [IsStrictOrderedRing K]

theorem zipWith_nonneg {v w : List K} (hv : NonNeg v) (hw : NonNeg w) : NonNeg (List.zipWith (· + ·) v w) := by
  intro x hx
  rw [List.mem_iff_getElem] at hx
  obtain ⟨i, hi, rfl⟩ := hx
  rw [List.getElem_zipWith]
  exact add_nonneg (hv _ (List.getElem_mem _)) (hw _ (List.getElem_mem _))

theorem foldl_nonneg (vs : List (List K)) (v : List K) (hv : NonNeg v) (h : ∀ w ∈ vs, NonNeg w) :
    NonNeg (vs.foldl (List.zipWith (· + ·)) v) := by
  induction vs generalizing v with
  | nil => exact hv
  | cons w ws ih => exact ih _ (zipWith_nonneg hv (h w (by simp))) fun u hu => h u (by simp [hu])

theorem headD_nonneg {vs : List (List K)} (h : ∀ v ∈ vs, NonNeg v) : NonNeg (vs.headD []) := by
  cases vs with
  | nil => intro x hx; simp at hx
  | cons v vs => exact h v (by simp)

/-- The functions that are looked through keep values non-negative. -/
theorem eval_nonneg {inputs : ℕ → List K} {op : Op K} (h : SignsAsDeclared inputs op) {vs : List (List K)}
    (hvs : ∀ v ∈ vs, NonNeg v) (ho : ∀ f, op ≠ .other f)
    (hm : ∀ m, op = .callModule m → m.signPreserving = true) : NonNeg (op.eval inputs vs) := by
  cases op with
  | placeholder n => exact h
  | getAttr v => exact h
  | callModule m => exact h.2.1 (hm m rfl) vs hvs
  | shape idx =>
    intro x hx
    obtain ⟨i, -, rfl⟩ := List.mem_map.mp hx
    rcases Nat.lt_or_ge i (vs.headD []).length with hi | hi
    · rw [List.getD_eq_getElem _ _ hi]; exact headD_nonneg hvs _ (List.getElem_mem _)
    · rw [List.getD_eq_default _ _ hi]
  | cat =>
    intro x hx
    obtain ⟨v, hv, hx⟩ := List.mem_flatten.mp hx
    exact hvs v hv x hx
  | add c =>
    cases vs with
    | nil =>
      intro x hx
      exact h x (by simpa [Op.eval] using hx)
    | cons v vs =>
      have hs := foldl_nonneg vs v (hvs v (by simp)) fun w hw => hvs w (by simp [hw])
      cases c with
      | none => exact hs
      | some c =>
        intro x hx
        obtain ⟨y, hy, rfl⟩ := List.mem_map.mp hx
        exact add_nonneg (hs y hy) (h c rfl)
  | other f => exact absurd rfl (ho f)

mutual
theorem unsignedArg_nonneg {inputs : ℕ → List K} : ∀ (e : Expr K), EveryNode (SignsAsDeclared inputs) e →
    (unsignedArg e).all id = true → NonNeg (e.eval inputs)
  | .node (.placeholder n) args, h, _ => h.1
  | .node (.getAttr v) args, h, _ => h.1
  | .node (.callModule m) args, h, hd => by
    rw [unsignedArg] at hd
    by_cases h1 : m.unsignedAct = true
    · exact h.1.1 h1 _
    · rw [if_neg h1] at hd
      by_cases h2 : m.signPreserving = true
      · rw [if_pos h2] at hd
        exact h.1.2.1 h2 _ (unsignedArgs_nonneg args h.2 hd)
      · rw [if_neg h2] at hd
        cases h3 : m.inputQuant with
        | none => rw [h3] at hd; simp at hd
        | some s =>
          rw [h3] at hd
          refine h.1.2.2 s h3 ?_ _
          rintro rfl
          simp at hd
  | .node (.shape idx) args, h, hd =>
    eval_nonneg h.1 (unsignedArgs_nonneg args h.2 hd) (fun _ => by simp) (fun _ => by simp)
  | .node .cat args, h, hd =>
    eval_nonneg h.1 (unsignedArgs_nonneg args h.2 hd) (fun _ => by simp) (fun _ => by simp)
  | .node (.add c) args, h, hd =>
    eval_nonneg h.1 (unsignedArgs_nonneg args h.2 hd) (fun _ => by simp) (fun _ => by simp)
  | .node (.other f) args, h, hd => by simp [unsignedArg] at hd
theorem unsignedArgs_nonneg {inputs : ℕ → List K} : ∀ (es : List (Expr K)), EveryNodeArgs (SignsAsDeclared inputs) es →
    (unsignedArgs es).all id = true → ∀ v ∈ evalArgs inputs es, NonNeg v
  | [], _, _ => by simp [evalArgs]
  | e :: es, h, hd => by
    rw [unsignedArgs, List.all_append, Bool.and_eq_true] at hd
    intro v hv
    rw [evalArgs, List.mem_cons] at hv
    rcases hv with rfl | hv
    · exact unsignedArg_nonneg e h.1 hd.1
    · exact unsignedArgs_nonneg es h.2 hd.2 v hv
end

/-- When an unsigned quantiser is chosen for the output of an addition, a concatenation, a reshape or a module that
preserves the sign, no value it receives is negative - provided signs are as declared.  The full statement has no such
condition; it is false (`C73_network_inputs_clipped`, `C73_added_number_ignored`, `C73_buffer_ignored`). -/
theorem C73_unsigned_partial {α : Type*} (u s : α) (hus : u ≠ s) (inputs : ℕ → List K) (op : Op K) (args : List (Expr K))
    (sp : Bool) (ho : ∀ f, op ≠ .other f) (hm : ∀ m, op = .callModule m → m.signPreserving = true)
    (h : EveryNode (SignsAsDeclared inputs) (.node op args)) (hd : outputQuantizer sp u s (.node op args) = u) :
    NonNeg ((Expr.node op args).eval inputs) ∧ ∀ v ∈ evalArgs inputs args, NonNeg v := by
  unfold outputQuantizer at hd
  by_cases hc : (sp && areInputsUnsigned (Expr.node op args)) = true
  · have hb := (Bool.and_eq_true _ _ ▸ hc).2
    have hargs := unsignedArgs_nonneg (inputs := inputs) args h.2 hb
    exact ⟨eval_nonneg h.1 hargs ho hm, hargs⟩
  · rw [if_neg hc] at hd
    exact absurd hd.symm hus

/-- A quantised ReLU plus a quantised ReLU: the hypotheses hold for every network input whose buffers are not negative. -/
example : outputQuantizer true "uint8" "int8"
    (.node (.add none) [.node (.callModule (quantReLU (fun x : ℚ => x) ⟨0, 0, 0⟩)) [.node (.getAttr [1, 2]) []],
      .node (.callModule { fn := fun vs => vs.headD [], signPreserving := true })
        [.node (.callModule { fn := fun vs => (vs.headD []).map fun x => max x 0, unsignedAct := true })
          [.node (.getAttr [3, 4]) []]]]) = "uint8" ∧
    EveryNode (SignsAsDeclared fun _ => [])
      (.node (.add none) [.node (.callModule (quantReLU (fun x : ℚ => x) ⟨0, 0, 0⟩)) [.node (.getAttr [1, 2]) []],
      .node (.callModule { fn := fun vs => vs.headD [], signPreserving := true })
        [.node (.callModule { fn := fun vs => (vs.headD []).map fun x => max x 0, unsignedAct := true })
          [.node (.getAttr [3, 4]) []]]]) := by
  refine ⟨by decide, ?_⟩
  simp only [EveryNode, EveryNodeArgs, SignsAsDeclared, and_true, quantReLU, NonNeg]
  refine ⟨by simp, ⟨⟨by simp, by simp, ?_⟩, by simp⟩, ⟨by simp, ?_, by simp⟩, ⟨?_, by simp, by simp⟩, by simp⟩
  · intro s _ _ vs x hx
    obtain ⟨y, -, rfl⟩ := List.mem_map.mp hx
    exact le_max_right _ _
  · intro _ vs hvs
    cases vs with
    | nil => simp
    | cons v vs => exact hvs v (by simp)
  · intro _ vs x hx
    obtain ⟨y, -, rfl⟩ := List.mem_map.mp hx
    exact le_max_right _ _

/-- Nodes that the decision looks through. -/
def LookedThrough : Op K → Prop
  | .callModule m => m.unsignedAct = false ∧ m.signPreserving = true
  | .other _ => False
  | _ => True

mutual
theorem unsignedArg_inputs {q : ℕ → K → K} {tq : ℕ → TensorQuantId} : ∀ (e : Expr K), EveryNode LookedThrough e →
    (unsignedArg (quantizeInputs (fun n => quantIdentity (q n) (tq n)) e)).all id = true
  | .node (.placeholder n) args, _ => by simp [quantizeInputs, unsignedArg, quantIdentity]
  | .node (.getAttr v) args, _ => by simp [quantizeInputs, unsignedArg]
  | .node (.callModule m) args, h => by
    rw [quantizeInputs, unsignedArg, if_neg (by simp [h.1.1]), if_pos h.1.2]
    exact unsignedArgs_inputs args h.2
    all_goals simp
  | .node (.shape idx) args, h => by
    rw [quantizeInputs, unsignedArg]
    exact unsignedArgs_inputs args h.2
    all_goals simp
  | .node .cat args, h => by
    rw [quantizeInputs, unsignedArg]
    exact unsignedArgs_inputs args h.2
    all_goals simp
  | .node (.add c) args, h => by
    rw [quantizeInputs, unsignedArg]
    exact unsignedArgs_inputs args h.2
    all_goals simp
  | .node (.other f) args, h => absurd h.1 (by simp [LookedThrough])
theorem unsignedArgs_inputs {q : ℕ → K → K} {tq : ℕ → TensorQuantId} : ∀ (es : List (Expr K)),
    EveryNodeArgs LookedThrough es →
    (unsignedArgs (quantizeInputsArgs (fun n => quantIdentity (q n) (tq n)) es)).all id = true
  | [], _ => rfl
  | e :: es, h => by
    rw [quantizeInputsArgs, unsignedArgs, List.all_append, unsignedArg_inputs e h.1, unsignedArgs_inputs es h.2]; rfl
end

/-- Whatever is computed from the network inputs by additions, concatenations, reshapes and sign-preserving modules only,
graph quantisation takes for unsigned - although it has itself put signed quantisers after the network inputs. -/
theorem C73_network_inputs_taken_for_unsigned {α : Type*} (u s : α) (q : ℕ → K → K) (tq : ℕ → TensorQuantId) (e : Expr K)
    (h : EveryNode LookedThrough e) :
    outputQuantizer true u s (quantizeInputs (fun n => quantIdentity (q n) (tq n)) e) = u := by
  have : areInputsUnsigned (quantizeInputs (fun n => quantIdentity (q n) (tq n)) e) = true := by
    obtain ⟨op, args⟩ := e
    unfold areInputsUnsigned
    cases op with
    | placeholder n => simp [quantizeInputs, Expr.args, unsignedArgs, unsignedArg]
    | other f => exact absurd h.1 (by simp [LookedThrough])
    | _ => rw [quantizeInputs, Expr.args]; exact unsignedArgs_inputs args h.2; all_goals simp
  simp [outputQuantizer, this]

variable [FloorRing K]

/-- An unsigned quantiser with zero point 0 sends every value below zero to a value that is not negative. -/
theorem unsigned_nonneg (c : IntQuantCfg K) (hsg : c.signed = false) (scale : K) (hs : 0 < scale) (b : ℕ) (x : K) :
    0 ≤ c.forward scale 0 b x := by
  have hmin : c.minInt b = (0 : K) := by simp [IntQuantCfg.minInt, minInt, hsg]
  simp only [IntQuantCfg.forward, IntQuantCfg.toInt, sub_zero]
  refine mul_nonneg ?_ hs.le
  rw [tensorClamp_eq, hmin]
  exact le_max_right _ _

/-- Hence a network that adds its two inputs loses all negative sums: whatever the quantisers of the map (the unsigned one
being an unsigned integer quantiser with zero point 0) and whatever the inputs, no output is negative. -/
theorem C73_network_inputs_clipped (c : IntQuantCfg K) (hsg : c.signed = false) (scale : K) (hs : 0 < scale) (b : ℕ)
    (signed : K → K) (q : ℕ → K → K) (tq : ℕ → TensorQuantId) (inputs : ℕ → List K) :
    let e := quantizeInputs (fun n => quantIdentity (q n) (tq n))
      (.node (.add none) [.node (.placeholder 0) [], .node (.placeholder 1) []])
    NonNeg ((e.eval inputs).map (outputQuantizer true (c.forward scale 0 b) signed e)) := by
  intro e x hx
  obtain ⟨y, -, rfl⟩ := List.mem_map.mp hx
  rw [show outputQuantizer true (c.forward scale 0 b) signed e = c.forward scale 0 b from
    C73_network_inputs_taken_for_unsigned _ _ q tq _ (by simp [EveryNode, EveryNodeArgs, LookedThrough])]
  exact unsigned_nonneg c hsg scale hs b y

/-- With 8-bit quantisers of scale 1: the inputs -3 and 1 add up to -2, the network returns 0. -/
example :
    let e := quantizeInputs (fun n => quantIdentity ((⟨true, false, torchRound⟩ : IntQuantCfg ℚ).forward 1 0 8) ⟨n, n, n⟩)
      (.node (.add none) [.node (.placeholder 0) [], .node (.placeholder 1) []])
    let inputs : ℕ → List ℚ := fun n => if n = 0 then [-3, 5] else [1, 1]
    e.eval inputs = [-2, 6] ∧
      (e.eval inputs).map (outputQuantizer true ((⟨false, false, torchRound⟩ : IntQuantCfg ℚ).forward 1 0 8)
        ((⟨true, false, torchRound⟩ : IntQuantCfg ℚ).forward 1 0 8) e) = [0, 6] := by
  decide +kernel

/-- A number that is added does not count: an unsigned activation plus any number, however negative, gets the unsigned
quantiser. -/
theorem C73_added_number_ignored {α : Type*} (u s : α) (c : K) (m : Quantize.Mod K) (hm : m.unsignedAct = true)
    (args : List (Expr K)) :
    outputQuantizer true u s (.node (.add (some c)) [.node (.callModule m) args]) = u ∧
      (m.fn = (fun _ => [0]) → c < 0 → ¬ ∀ inputs,
        NonNeg ((Expr.node (.add (some c)) [.node (.callModule m) args]).eval inputs)) := by
  refine ⟨by simp [outputQuantizer, areInputsUnsigned, Expr.args, unsignedArgs, unsignedArg, hm], fun hf hc h => ?_⟩
  have := h (fun _ => []) c (by simp [Expr.eval, evalArgs, Op.eval, hf])
  exact absurd this (not_le.mpr hc)

example : ({ fn := fun _ => [0], unsignedAct := true } : Quantize.Mod ℚ).unsignedAct = true ∧ (-1 : ℚ) < 0 := by decide

/-- Buffers and parameters do not count either: an unsigned activation plus a tensor of the model gets the unsigned
quantiser, whatever the tensor holds. -/
theorem C73_buffer_ignored {α : Type*} (u s : α) (v : List K) (m : Quantize.Mod K) (hm : m.unsignedAct = true)
    (args : List (Expr K)) :
    outputQuantizer true u s (.node (.add none) [.node (.callModule m) args, .node (.getAttr v) []]) = u ∧
      (m.fn = (fun _ => v.map fun _ => 0) → (∃ x ∈ v, x < 0) → ¬ ∀ inputs,
        NonNeg ((Expr.node (.add none) [.node (.callModule m) args, .node (.getAttr v) []]).eval inputs)) := by
  refine ⟨by simp [outputQuantizer, areInputsUnsigned, Expr.args, unsignedArgs, unsignedArg, hm], fun hf hx h => ?_⟩
  obtain ⟨x, hx, hlt⟩ := hx
  have hz : List.zipWith (· + ·) (v.map fun _ => (0 : K)) v = v := by
    clear hf h hx hlt
    induction v with
    | nil => rfl
    | cons a v ih => rw [List.map_cons, List.zipWith_cons_cons, ih, zero_add]
  have := h (fun _ => []) x (by
    simp only [Expr.eval, evalArgs, Op.eval, hf, List.foldl_cons, List.foldl_nil]
    rw [hz]; exact hx)
  exact absurd this (not_le.mpr hlt)

example : ∃ x ∈ ([2, -1] : List ℚ), x < 0 := ⟨-1, by simp, by norm_num⟩

end Unsigned

/-! ## C74 -/

section Aligned
variable {K : Type*}

/-- The value of a node is quantised, and every quantiser it comes from satisfies `P`: it is the output of a module with an
activation quantiser, or is made of such values by reshaping, concatenating, adding or by modules that keep the grid. -/
inductive QuantisedBy (P : TensorQuantId → Prop) : Expr K → Prop
  | act (m : Quantize.Mod K) (args : List (Expr K)) (tq : TensorQuantId) : m.actQuant = some tq → P tq →
      QuantisedBy P (.node (.callModule m) args)
  | keeps (m : Quantize.Mod K) (args : List (Expr K)) : m.precisionPreserving = true → (∀ a ∈ args, QuantisedBy P a) →
      QuantisedBy P (.node (.callModule m) args)
  | shape (idx : List ℕ) (args : List (Expr K)) : (∀ a ∈ args, QuantisedBy P a) → QuantisedBy P (.node (.shape idx) args)
  | cat (args : List (Expr K)) : (∀ a ∈ args, QuantisedBy P a) → QuantisedBy P (.node .cat args)
  | add (c : Option K) (args : List (Expr K)) : (∀ a ∈ args, QuantisedBy P a) → QuantisedBy P (.node (.add c) args)

/-- No network input and no buffer is reached without passing a quantiser: neither is a node of the graph outside of the
inputs of modules that do not keep the grid. -/
def NoRaw : Op K → Prop
  | .placeholder _ => False
  | .getAttr _ => False
  | _ => True

/-- Two quantisers have the same scaling implementations. -/
def SameScaling (a b : TensorQuantId) : Prop := a.scaling = b.scaling ∧ a.intScaling = b.intScaling

mutual
/-- `NoRaw` at every node that is looked through. -/
def Looked (P : Op K → Prop) : Expr K → Prop
  | .node (.callModule m) args => m.precisionPreserving = true → LookedArgs P args
  | .node op args => P op ∧ LookedArgs P args
/-- The same for a list of nodes. -/
def LookedArgs (P : Op K → Prop) : List (Expr K) → Prop
  | [] => True
  | e :: es => Looked P e ∧ LookedArgs P es
end

theorem tensorQuantInList_iff {tq : TensorQuantId} {ms : List (Option TensorQuantId)} {sameSign : Bool} :
    tensorQuantInList tq ms sameSign = true ↔
      ∃ m, some m ∈ ms ∧ (if sameSign then m = tq else SameScaling m tq) := by
  unfold tensorQuantInList
  rw [List.any_eq_true]
  constructor
  · rintro ⟨m, hm, h⟩
    cases m with
    | none => simp at h
    | some m =>
      refine ⟨m, hm, ?_⟩
      cases sameSign
      · simpa [SameScaling] using h
      · simpa using h
  · rintro ⟨m, hm, h⟩
    refine ⟨some m, hm, ?_⟩
    cases sameSign
    · simpa [SameScaling] using h
    · simpa using h

theorem QuantisedBy.mono {P Q : TensorQuantId → Prop} (hPQ : ∀ t, P t → Q t) {e : Expr K} (h : QuantisedBy P e) :
    QuantisedBy Q e := by
  induction h with
  | act m args tq h hp => exact .act m args tq h (hPQ _ hp)
  | keeps m args h _ ih => exact .keeps m args h ih
  | shape idx args _ ih => exact .shape idx args ih
  | cat args _ ih => exact .cat args ih
  | add c args _ ih => exact .add c args ih

mutual
theorem alignedArg_subset (ss : Bool) : ∀ (e : Expr K) (acc : List (Option TensorQuantId)),
    acc ⊆ alignedArg ss e acc
  | .node (.placeholder _) _, acc => by simp [alignedArg]
  | .node (.getAttr _) _, acc => by simp [alignedArg]
  | .node (.callModule m) args, acc => by
    rw [alignedArg]
    by_cases h1 : (m.precisionPreserving && (!ss || (ss && m.signPreserving))) = true
    · rw [if_pos h1]; exact alignedArgs_subset ss args acc
    · rw [if_neg h1]
      cases m.actQuant with
      | none => simp
      | some aq =>
        simp only
        by_cases h2 : tensorQuantInList aq acc ss = true
        · rw [if_pos h2]; simp
        · rw [if_neg h2]; simp
  | .node (.shape _) args, acc => by rw [alignedArg]; exact alignedArgs_subset ss args acc
  | .node .cat args, acc => by rw [alignedArg]; exact alignedArgs_subset true args acc
  | .node (.add _) args, acc => by rw [alignedArg]; exact alignedArgs_subset false args acc
  | .node (.other _) _, acc => by simp [alignedArg]
theorem alignedArgs_subset (ss : Bool) : ∀ (es : List (Expr K)) (acc : List (Option TensorQuantId)),
    acc ⊆ alignedArgs ss es acc
  | [], acc => by simp [alignedArgs]
  | e :: es, acc => by
    rw [alignedArgs]
    exact fun x hx => alignedArgs_subset ss es _ (alignedArg_subset ss e acc hx)
end

/-- The quantiser `tq` is one of a list, up to scaling. -/
def Listed (l : List (Option TensorQuantId)) (tq : TensorQuantId) : Prop := ∃ m, some m ∈ l ∧ SameScaling m tq

theorem Listed.mono {l l' : List (Option TensorQuantId)} (h : l ⊆ l') (tq : TensorQuantId) (ht : Listed l tq) :
    Listed l' tq := by
  obtain ⟨m, hm, hs⟩ := ht
  exact ⟨m, h hm, hs⟩

mutual
/-- If a node adds no `None` to the list, its value is quantised by quantisers that have, up to scaling, been listed. -/
theorem alignedArg_quantised (ss : Bool) : ∀ (e : Expr K) (acc : List (Option TensorQuantId)), Looked NoRaw e →
    none ∉ alignedArg ss e acc → QuantisedBy (Listed (alignedArg ss e acc)) e
  | .node (.placeholder _) _, acc, h, _ => absurd h.1 (by simp [NoRaw])
  | .node (.getAttr _) _, acc, h, _ => absurd h.1 (by simp [NoRaw])
  | .node (.callModule m) args, acc, h, hn => by
    rw [alignedArg] at hn ⊢
    by_cases h1 : (m.precisionPreserving && (!ss || (ss && m.signPreserving))) = true
    · rw [if_pos h1] at hn ⊢
      have hp := (Bool.and_eq_true _ _ ▸ h1).1
      exact .keeps m args hp (alignedArgs_quantised ss args acc (h hp) hn)
    · rw [if_neg h1] at hn ⊢
      cases ha : m.actQuant with
      | none => rw [ha] at hn; simp at hn
      | some aq =>
        refine .act m args aq ha ?_
        simp only
        by_cases h2 : tensorQuantInList aq acc ss = true
        · rw [if_pos h2]
          obtain ⟨m', hm', hs⟩ := tensorQuantInList_iff.mp h2
          refine ⟨m', hm', ?_⟩
          cases ss
          · simpa using hs
          · have : m' = aq := by simpa using hs
            subst this
            exact ⟨rfl, rfl⟩
        · rw [if_neg h2]
          exact ⟨aq, by simp, rfl, rfl⟩
  | .node (.shape idx) args, acc, h, hn => by
    rw [alignedArg] at hn ⊢
    exact .shape idx args (alignedArgs_quantised ss args acc h.2 hn)
  | .node .cat args, acc, h, hn => by
    rw [alignedArg] at hn ⊢
    exact .cat args (alignedArgs_quantised true args acc h.2 hn)
  | .node (.add c) args, acc, h, hn => by
    rw [alignedArg] at hn ⊢
    exact .add c args (alignedArgs_quantised false args acc h.2 hn)
  | .node (.other _) _, acc, _, hn => by simp [alignedArg] at hn
/-- The same for all inputs of a node. -/
theorem alignedArgs_quantised (ss : Bool) : ∀ (es : List (Expr K)) (acc : List (Option TensorQuantId)), LookedArgs NoRaw es →
    none ∉ alignedArgs ss es acc → ∀ a ∈ es, QuantisedBy (Listed (alignedArgs ss es acc)) a
  | [], _, _, _ => by simp
  | e :: es, acc, h, hn => by
    rw [alignedArgs] at hn ⊢
    intro a ha
    rcases List.mem_cons.mp ha with ha | ha
    · rw [ha]
      have hsub := alignedArgs_subset ss es (alignedArg ss e acc)
      exact (alignedArg_quantised ss e acc h.1 fun hm => hn (hsub hm)).mono fun t => Listed.mono hsub t
    · exact alignedArgs_quantised ss es _ h.2 hn a ha
end

/-- The decision, taken apart. -/
theorem aligned_iff (ss : Bool) (e : Expr K) : areInputsQuantizedAndAligned ss e = true ↔
    none ∉ alignedArgs ss e.args [] ∧ (alignedArgs ss e.args []).length ≤ 1 := by
  unfold areInputsQuantizedAndAligned
  by_cases h1 : (alignedArgs ss e.args []).contains none = true
  · rw [if_pos h1]
    simp only [Bool.false_eq_true, false_iff, not_and]
    intro hn
    exact absurd (by simpa using h1) hn
  · rw [if_neg h1]
    have hn : none ∉ alignedArgs ss e.args [] := by simpa using h1
    by_cases h2 : (alignedArgs ss e.args []).length > 1
    · rw [if_pos h2]; simp only [Bool.false_eq_true, false_iff, not_and]; intro _; omega
    · rw [if_neg h2]; simp only [true_iff]; exact ⟨hn, by omega⟩

/-- If graph quantisation finds the inputs of a node quantised and aligned, they all are quantised, and all the quantisers
they come from have the same scaling implementations - provided no network input and no buffer reaches the node without
passing a quantiser.  The full statement has no such condition; it is false (`C74_buffer_ignored`). -/
theorem C74_aligned_partial (ss : Bool) (op : Op K) (args : List (Expr K)) (h : LookedArgs NoRaw args)
    (hd : areInputsQuantizedAndAligned ss (.node op args) = true) :
    ∃ t, ∀ a ∈ args, QuantisedBy (SameScaling t) a := by
  obtain ⟨hn, hl⟩ := (aligned_iff ss _).mp hd
  have hq := alignedArgs_quantised ss args [] h hn
  simp only [Expr.args] at hn hl
  rcases hc : alignedArgs ss args [] with _ | ⟨m, _ | ⟨m', l⟩⟩
  · refine ⟨⟨0, 0, 0⟩, fun a ha => (hq a ha).mono fun t ht => ?_⟩
    obtain ⟨m, hm, -⟩ := ht
    rw [hc] at hm
    simp at hm
  · cases m with
    | none => rw [hc] at hn; simp at hn
    | some m =>
      refine ⟨m, fun a ha => (hq a ha).mono fun t ht => ?_⟩
      obtain ⟨m', hm', hs⟩ := ht
      rw [hc] at hm'
      have : m' = m := by simpa using hm'
      subst this
      exact hs
  · rw [hc] at hl; simp at hl

/-- Two activations with one quantiser, one of them behind a reshape, and a third one that shares the scaling. -/
example :
    let a : Expr ℚ := .node (.callModule (quantReLU (fun x => x) ⟨1, 7, 8⟩)) [.node (.placeholder 0) []]
    let b : Expr ℚ := .node (.shape [0]) [.node (.callModule (quantIdentity (fun x => x) ⟨1, 7, 8⟩)) []]
    let c : Expr ℚ := .node (.callModule (quantIdentity (fun x => x) ⟨2, 7, 8⟩)) []
    areInputsQuantizedAndAligned false (.node (.add none) [a, b, c]) = true ∧
      areInputsQuantizedAndAligned true (.node .cat [a, b]) = true ∧
      areInputsQuantizedAndAligned true (.node .cat [a, b, c]) = false ∧
      LookedArgs NoRaw [a, b, c] := by
  refine ⟨by decide, by decide, by decide, ?_⟩
  simp [LookedArgs, Looked, NoRaw, quantReLU, quantIdentity]

/-- Nothing but quantised values that are reshaped or concatenated. -/
def NoRawNoAdd : Op K → Prop
  | .placeholder _ => False
  | .getAttr _ => False
  | .add _ => False
  | _ => True

mutual
/-- Within a concatenation, without additions, the quantisers listed are the very quantisers. -/
theorem alignedArg_same : ∀ (e : Expr K) (acc : List (Option TensorQuantId)), Looked NoRawNoAdd e →
    none ∉ alignedArg true e acc → QuantisedBy (fun t => some t ∈ alignedArg true e acc) e
  | .node (.placeholder _) _, acc, h, _ => absurd h.1 (by simp [NoRawNoAdd])
  | .node (.getAttr _) _, acc, h, _ => absurd h.1 (by simp [NoRawNoAdd])
  | .node (.callModule m) args, acc, h, hn => by
    rw [alignedArg] at hn ⊢
    by_cases h1 : (m.precisionPreserving && (!true || (true && m.signPreserving))) = true
    · rw [if_pos h1] at hn ⊢
      have hp := (Bool.and_eq_true _ _ ▸ h1).1
      exact .keeps m args hp (alignedArgs_same args acc (h hp) hn)
    · rw [if_neg h1] at hn ⊢
      cases ha : m.actQuant with
      | none => rw [ha] at hn; simp at hn
      | some aq =>
        refine .act m args aq ha ?_
        simp only
        by_cases h2 : tensorQuantInList aq acc true = true
        · rw [if_pos h2]
          obtain ⟨m', hm', hs⟩ := tensorQuantInList_iff.mp h2
          have : m' = aq := by simpa using hs
          rwa [this] at hm'
        · rw [if_neg h2]; simp
  | .node (.shape idx) args, acc, h, hn => by
    rw [alignedArg] at hn ⊢
    exact .shape idx args (alignedArgs_same args acc h.2 hn)
  | .node .cat args, acc, h, hn => by
    rw [alignedArg] at hn ⊢
    exact .cat args (alignedArgs_same args acc h.2 hn)
  | .node (.add c) args, acc, h, hn => absurd h.1 (by simp [NoRawNoAdd])
  | .node (.other _) _, acc, _, hn => by simp [alignedArg] at hn
/-- The same for all inputs of a node. -/
theorem alignedArgs_same : ∀ (es : List (Expr K)) (acc : List (Option TensorQuantId)), LookedArgs NoRawNoAdd es →
    none ∉ alignedArgs true es acc → ∀ a ∈ es, QuantisedBy (fun t => some t ∈ alignedArgs true es acc) a
  | [], _, _, _ => by simp
  | e :: es, acc, h, hn => by
    rw [alignedArgs] at hn ⊢
    intro a ha
    rcases List.mem_cons.mp ha with ha | ha
    · rw [ha]
      have hsub := alignedArgs_subset true es (alignedArg true e acc)
      exact (alignedArg_same e acc h.1 fun hm => hn (hsub hm)).mono fun t ht => hsub ht
    · exact alignedArgs_same es _ h.2 hn a ha
end

/-- If the inputs of a concatenation are found aligned they all come from one and the same quantiser, so with the same sign
too - provided they are not sums and no network input or buffer reaches the node without passing a quantiser. -/
theorem C74_cat_partial (args : List (Expr K)) (h : LookedArgs NoRawNoAdd args)
    (hd : areInputsQuantizedAndAligned true (.node .cat args) = true) :
    ∃ t, ∀ a ∈ args, QuantisedBy (· = t) a := by
  obtain ⟨hn, hl⟩ := (aligned_iff true _).mp hd
  simp only [Expr.args] at hn hl
  have hq := alignedArgs_same args [] h hn
  rcases hc : alignedArgs true args [] with _ | ⟨m, _ | ⟨m', l⟩⟩
  · refine ⟨⟨0, 0, 0⟩, fun a ha => (hq a ha).mono fun t ht => ?_⟩
    rw [hc] at ht
    simp at ht
  · cases m with
    | none => rw [hc] at hn; simp at hn
    | some m =>
      refine ⟨m, fun a ha => (hq a ha).mono fun t ht => ?_⟩
      rw [hc] at ht
      simpa using ht
  · rw [hc] at hl; simp at hl

example :
    let a : Expr ℚ := .node (.callModule (quantReLU (fun x => x) ⟨1, 7, 8⟩)) [.node (.placeholder 0) []]
    let b : Expr ℚ := .node (.shape [0]) [.node (.callModule (quantIdentity (fun x => x) ⟨1, 7, 8⟩)) []]
    areInputsQuantizedAndAligned true (.node .cat [a, b]) = true ∧ LookedArgs NoRawNoAdd [a, b] := by
  refine ⟨by decide, ?_⟩
  simp [LookedArgs, Looked, NoRawNoAdd, quantReLU, quantIdentity]

/-- Modules that keep the grid: they keep the sign and have no quantiser, as all classes of the tuple do. -/
def KeepersPlain : Op K → Prop
  | .callModule m => m.precisionPreserving = true → m.signPreserving = true ∧ m.actQuant = none
  | _ => True

theorem EveryNodeArgs.mem {P : Op K → Prop} {es : List (Expr K)} (h : EveryNodeArgs P es) {e : Expr K} (he : e ∈ es) :
    EveryNode P e := by
  induction es with
  | nil => simp at he
  | cons a es ih =>
    rcases List.mem_cons.mp he with rfl | he
    · exact h.1
    · exact ih h.2 he

theorem alignedArgs_append_inv {t : TensorQuantId} {ss : Bool} (es : List (Expr K))
    (h : ∀ e ∈ es, ∀ acc, acc = [] ∨ acc = [some t] → alignedArg ss e acc = [] ∨ alignedArg ss e acc = [some t])
    (acc : List (Option TensorQuantId)) (ha : acc = [] ∨ acc = [some t]) :
    alignedArgs ss es acc = [] ∨ alignedArgs ss es acc = [some t] := by
  induction es generalizing acc with
  | nil => exact ha
  | cons e es ih => exact ih (fun e' he' => h e' (by simp [he'])) _ (h e (by simp) acc ha)

theorem quantised_aligned {t : TensorQuantId} {e : Expr K} (hq : QuantisedBy (· = t) e) : EveryNode KeepersPlain e →
    ∀ (ss : Bool) (acc : List (Option TensorQuantId)), acc = [] ∨ acc = [some t] →
      alignedArg ss e acc = [] ∨ alignedArg ss e acc = [some t] := by
  induction hq with
  | act m args tq h hp =>
    subst hp
    intro hk ss acc hacc
    have h1 : ¬ (m.precisionPreserving && (!ss || (ss && m.signPreserving))) = true := by
      intro hc
      have := (hk.1 (Bool.and_eq_true _ _ ▸ hc).1).2
      rw [h] at this
      simp at this
    rw [alignedArg, if_neg h1, h]
    simp only
    rcases hacc with rfl | rfl
    · cases ss <;> simp [tensorQuantInList]
    · cases ss <;> simp [tensorQuantInList]
  | keeps m args h _ ih =>
    intro hk ss acc hacc
    have h1 : (m.precisionPreserving && (!ss || (ss && m.signPreserving))) = true := by
      rw [h, (hk.1 h).1]; cases ss <;> rfl
    rw [alignedArg, if_pos h1]
    exact alignedArgs_append_inv args (fun e he acc ha => ih e he (hk.2.mem he) ss acc ha) acc hacc
  | shape idx args _ ih =>
    intro hk ss acc hacc
    rw [alignedArg]
    exact alignedArgs_append_inv args (fun e he acc ha => ih e he (hk.2.mem he) ss acc ha) acc hacc
  | cat args _ ih =>
    intro hk ss acc hacc
    rw [alignedArg]
    exact alignedArgs_append_inv args (fun e he acc ha => ih e he (hk.2.mem he) true acc ha) acc hacc
  | add c args _ ih =>
    intro hk ss acc hacc
    rw [alignedArg]
    exact alignedArgs_append_inv args (fun e he acc ha => ih e he (hk.2.mem he) false acc ha) acc hacc

/-- Conversely, inputs that all come from one quantiser - directly or through reshapes, concatenations, additions and
modules that keep the grid - are found aligned, both for additions and for concatenations: such a node is left as it is,
so that once a shared quantiser has been put on all the inputs of a node, the node is done. -/
theorem C74_one_quantiser_accepted (ss : Bool) (op : Op K) (args : List (Expr K)) (hk : EveryNodeArgs KeepersPlain args)
    (t : TensorQuantId) (h : ∀ a ∈ args, QuantisedBy (· = t) a) :
    areInputsQuantizedAndAligned ss (.node op args) = true := by
  rw [aligned_iff]
  simp only [Expr.args]
  rcases alignedArgs_append_inv (ss := ss) args (fun e he acc ha => quantised_aligned (h e he) (hk.mem he) ss acc ha) []
    (Or.inl rfl) with h0 | h0 <;> rw [h0] <;> simp

example :
    let a : Expr ℚ := .node (.callModule (quantIdentity (fun x => x) ⟨1, 7, 8⟩)) [.node (.placeholder 0) []]
    EveryNodeArgs KeepersPlain [a, .node (.shape [0]) [a]] ∧ ∀ x ∈ [a, .node (.shape [0]) [a]], QuantisedBy (· = ⟨1, 7, 8⟩) x := by
  intro a
  have ha : QuantisedBy (· = ⟨1, 7, 8⟩) a := .act _ _ _ rfl rfl
  refine ⟨by simp [EveryNodeArgs, EveryNode, KeepersPlain, a, quantIdentity], ?_⟩
  intro x hx
  rcases List.mem_cons.mp hx with rfl | hx
  · exact ha
  · rw [List.mem_singleton] at hx
    subst hx
    exact .shape _ _ (by simpa using ha)

/-- A buffer or a network input among the inputs is not noticed: next to one quantised activation, or alone, it is found
quantised and aligned although no quantiser has touched it. -/
theorem C74_buffer_ignored (ss : Bool) (op : Op K) (m : Quantize.Mod K) (hm : m.precisionPreserving = false)
    (tq : TensorQuantId) (ha : m.actQuant = some tq) (v : List K) (n : ℕ) :
    let args : List (Expr K) := [.node (.callModule m) [], .node (.getAttr v) [], .node (.placeholder n) []]
    areInputsQuantizedAndAligned ss (.node op args) = true ∧ ¬ ∃ P, ∀ a ∈ args, QuantisedBy P a := by
  intro args
  constructor
  · rw [aligned_iff]
    simp [Expr.args, args, alignedArgs, alignedArg, hm, ha, tensorQuantInList]
  · rintro ⟨P, h⟩
    have := h (.node (.getAttr v) []) (by simp [args])
    cases this

example : (quantIdentity (fun x : ℚ => x) ⟨1, 2, 3⟩).precisionPreserving = false ∧
    (quantIdentity (fun x : ℚ => x) ⟨1, 2, 3⟩).actQuant = some ⟨1, 2, 3⟩ := ⟨rfl, rfl⟩

/-! ### What alignment is for: sums stay on the grid -/

variable [Field K]

/-- Every value is an integer times `s`. -/
def OnGrid (s : K) (v : List K) : Prop := ∀ x ∈ v, ∃ k : ℤ, x = k * s

/-- Quantisers return values of the grid of their scale, and the modules said to keep the grid keep it; no Python number
is added. -/
def GridsAsDeclared (scale : TensorQuantId → K) : Op K → Prop
  | .callModule m =>
    (∀ t, m.actQuant = some t → ∀ vs, OnGrid (scale t) (m.fn vs)) ∧
    (m.precisionPreserving = true → ∀ s vs, (∀ v ∈ vs, OnGrid s v) → OnGrid s (m.fn vs))
  | .add c => c = none
  | _ => True

theorem OnGrid.zipWith {s : K} {v w : List K} (hv : OnGrid s v) (hw : OnGrid s w) :
    OnGrid s (List.zipWith (· + ·) v w) := by
  intro x hx
  rw [List.mem_iff_getElem] at hx
  obtain ⟨i, hi, rfl⟩ := hx
  rw [List.getElem_zipWith]
  obtain ⟨k, hk⟩ := hv _ (List.getElem_mem (by simp at hi; omega : i < v.length))
  obtain ⟨l, hl⟩ := hw _ (List.getElem_mem (by simp at hi; omega : i < w.length))
  exact ⟨k + l, by rw [hk, hl]; push_cast; ring⟩

theorem OnGrid.foldl {s : K} (vs : List (List K)) (v : List K) (hv : OnGrid s v) (h : ∀ w ∈ vs, OnGrid s w) :
    OnGrid s (vs.foldl (List.zipWith (· + ·)) v) := by
  induction vs generalizing v with
  | nil => exact hv
  | cons w ws ih => exact ih _ (hv.zipWith (h w (by simp))) fun u hu => h u (by simp [hu])

theorem mem_evalArgs {inputs : ℕ → List K} {es : List (Expr K)} {v : List K} (h : v ∈ evalArgs inputs es) :
    ∃ e ∈ es, v = e.eval inputs := by
  induction es with
  | nil => simp [evalArgs] at h
  | cons a es ih =>
    rw [evalArgs, List.mem_cons] at h
    rcases h with rfl | h
    · exact ⟨a, by simp, rfl⟩
    · obtain ⟨e, he, hv⟩ := ih h
      exact ⟨e, by simp [he], hv⟩

/-- Reshaping, concatenating and adding values of a grid gives values of that grid. -/
theorem eval_onGrid {s : K} {inputs : ℕ → List K} {op : Op K} {vs : List (List K)} (hvs : ∀ v ∈ vs, OnGrid s v)
    (ho : (∃ idx, op = .shape idx) ∨ op = .cat ∨ op = .add none) : OnGrid s (op.eval inputs vs) := by
  rcases ho with ⟨idx, rfl⟩ | rfl | rfl
  · intro x hx
    obtain ⟨i, -, rfl⟩ := List.mem_map.mp hx
    have hh : OnGrid s (vs.headD []) := by
      cases vs with
      | nil => intro x hx; simp at hx
      | cons v vs => exact hvs v (by simp)
    rcases Nat.lt_or_ge i (vs.headD []).length with hi | hi
    · rw [List.getD_eq_getElem _ _ hi]; exact hh _ (List.getElem_mem _)
    · rw [List.getD_eq_default _ _ hi]; exact ⟨0, by simp⟩
  · intro x hx
    obtain ⟨v, hv, hx⟩ := List.mem_flatten.mp hx
    exact hvs v hv x hx
  · cases vs with
    | nil => intro x hx; simp [Op.eval] at hx
    | cons v vs => exact OnGrid.foldl vs v (hvs v (by simp)) fun w hw => hvs w (by simp [hw])

theorem QuantisedBy.onGrid {scale : TensorQuantId → K} {s : K} {P : TensorQuantId → Prop} (hP : ∀ t, P t → scale t = s)
    {inputs : ℕ → List K} {e : Expr K} (hq : QuantisedBy P e) :
    EveryNode (GridsAsDeclared scale) e → OnGrid s (e.eval inputs) := by
  induction hq with
  | act m args tq h hp =>
    intro hg
    rw [← hP tq hp]
    exact hg.1.1 tq h _
  | keeps m args h _ ih =>
    intro hg
    refine hg.1.2 h s _ fun v hv => ?_
    obtain ⟨e, he, rfl⟩ := mem_evalArgs hv
    exact ih e he (hg.2.mem he)
  | shape idx args _ ih =>
    intro hg
    refine eval_onGrid (inputs := inputs) (fun v hv => ?_) (Or.inl ⟨idx, rfl⟩)
    obtain ⟨e, he, rfl⟩ := mem_evalArgs hv
    exact ih e he (hg.2.mem he)
  | cat args _ ih =>
    intro hg
    refine eval_onGrid (inputs := inputs) (fun v hv => ?_) (Or.inr (Or.inl rfl))
    obtain ⟨e, he, rfl⟩ := mem_evalArgs hv
    exact ih e he (hg.2.mem he)
  | add c args _ ih =>
    intro hg
    have hc : c = none := hg.1
    subst hc
    refine eval_onGrid (inputs := inputs) (fun v hv => ?_) (Or.inr (Or.inr rfl))
    obtain ⟨e, he, rfl⟩ := mem_evalArgs hv
    exact ih e he (hg.2.mem he)

/-- So, where an addition or a concatenation is found aligned, all its inputs lie on one integer grid and its result lies
on it as well - provided, again, that no network input and no buffer reaches it without passing a quantiser. -/
theorem C74_sum_on_grid_partial (scale : TensorQuantId → K) (hs : ∀ a b, SameScaling a b → scale a = scale b)
    (inputs : ℕ → List K) (ss : Bool) (op : Op K) (ho : op = .cat ∨ op = .add none) (args : List (Expr K))
    (h : LookedArgs NoRaw args) (hg : EveryNodeArgs (GridsAsDeclared scale) args)
    (hd : areInputsQuantizedAndAligned ss (.node op args) = true) :
    ∃ t, (∀ a ∈ args, OnGrid (scale t) (a.eval inputs)) ∧ OnGrid (scale t) ((Expr.node op args).eval inputs) := by
  obtain ⟨t, ht⟩ := C74_aligned_partial ss op args h hd
  have hargs : ∀ a ∈ args, OnGrid (scale t) (a.eval inputs) := fun a ha =>
    (ht a ha).onGrid (fun t' h' => (hs t t' h').symm) (hg.mem ha)
  refine ⟨t, hargs, eval_onGrid (fun v hv => ?_) (Or.inr ho)⟩
  obtain ⟨e, he, rfl⟩ := mem_evalArgs hv
  exact hargs e he

/-- Two activations rounded to halves. -/
example :
    let a : Expr ℚ := .node (.callModule (quantIdentity (fun x => (⌊x * 2⌋ : ℚ) * (1 / 2)) ⟨1, 7, 8⟩)) [.node (.placeholder 0) []]
    let b : Expr ℚ := .node (.callModule (quantIdentity (fun x => (⌊x * 2⌋ : ℚ) * (1 / 2)) ⟨2, 7, 8⟩)) [.node (.placeholder 1) []]
    let scale : TensorQuantId → ℚ := fun _ => 1 / 2
    (∀ s t, SameScaling s t → scale s = scale t) ∧ LookedArgs NoRaw [a, b] ∧ EveryNodeArgs (GridsAsDeclared scale) [a, b] ∧
      areInputsQuantizedAndAligned false (.node (.add none) [a, b]) = true := by
  refine ⟨fun _ _ _ => rfl, by simp [LookedArgs, Looked, quantIdentity], ?_, by decide⟩
  simp only [EveryNodeArgs, EveryNode, GridsAsDeclared, and_true, quantIdentity, OnGrid]
  refine ⟨⟨?_, by simp⟩, ?_, by simp⟩ <;>
  · intro t _ vs x hx
    obtain ⟨y, -, rfl⟩ := List.mem_map.mp hx
    exact ⟨_, rfl⟩

end Aligned

end Brevitas.Props
