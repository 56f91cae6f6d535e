import Verif.Lemmas.LayerInputs
import Verif.Lemmas.LayerShared

/-!
# C94: what graph quantisation does with layers

Missing from the theorems that end in `_partial`: layers that are called more than once and networks that read buffers or parameters directly, for which the
property is false, and the inputs of a layer after the first one, which are not quantised.
-/

namespace Brevitas.Residual

/-- If every layer is of a class in the map and is called once, and network inputs are quantised, then graph quantisation returns, and every layer for
which the map has an entry is replaced by a layer of that class with the same parameters, reads a quantised (first) input unless the new layer
quantises its input itself, and, if so required, what it returns is read by quantisers only, or by batch norms of which the same holds. -/
theorem C94_layers_partial (lm : LayerMap) (N : Net) (rank : ℕ → ℕ) (fuel : ℕ) (requantize : Bool) (hP : N.Proper rank fuel) (hL : N.PlainLayers lm)
    (hI : N.InputsQuantised) (hid : lm.inst "QuantIdentity" = false) :
    ∃ N', layerHandler lm fuel requantize N = some N' ∧
      ∀ v ∈ N.nodes, ∀ m o, N.g.op v = .call m → (m, o) ∈ N.g.mods → lm.inst (N.cls o) = true →
        (∀ c q, lm.entry (N.cls o) = some (some (c, q)) →
          (∃ o', N'.g.op v = .call m ∧ N'.g.objId m = o' ∧ N'.cls o' = c ∧ N'.src o' = o) ∧
          (q = false → ∀ b, (N'.g.args v).head? = some b → Quantised N'.g b)) ∧
        (requantize = true → Requantised lm N' v) := by
  obtain ⟨N', h1, S'⟩ := handler_state fuel requantize hP hL hI hid
  refine ⟨N', h1, fun v hv m o hop ho hinst => ?_⟩
  have D := S'.done v (by simp) m o ⟨hv, hop, ho, hinst⟩
  refine ⟨fun c q hc => ⟨?_, (D.replaced c q hc).2⟩, D.requantised⟩
  obtain ⟨o', h2, h3, h4, _⟩ := (D.replaced c q hc).1
  exact ⟨o', by rw [S'.came.op v hv, hop], objId_mem S'.came.wf.names h2, h3, h4⟩

/-- And it does nothing else: the nodes are the old ones and new quantisers, every old node calls what it called before and reads what it read before,
possibly through new quantisers, and modules for which the map has no entry stay (under names other than those of new quantisers). -/
theorem C94_nothing_else_partial (lm : LayerMap) (N : Net) (rank : ℕ → ℕ) (fuel : ℕ) (requantize : Bool) (hP : N.Proper rank fuel) (hL : N.PlainLayers lm)
    (hI : N.InputsQuantised) (hid : lm.inst "QuantIdentity" = false) :
    ∃ N', layerHandler lm fuel requantize N = some N' ∧ (∀ x ∈ N.nodes, x ∈ N'.nodes ∧ N'.g.op x = N.g.op x ∧
        List.Forall₂ (After N.nodes N') (N'.g.args x) (N.g.args x)) ∧
      ∀ m o, (m, o) ∈ N.g.mods → (∀ n, m ≠ .quant n ∧ m ≠ .outputQuant n ∧ m ≠ .inputQuant n) →
        ¬ (lm.inst (N.cls o) = true ∧ ∃ p, lm.entry (N.cls o) = some (some p)) →
        N'.g.objId m = o ∧ N'.cls o = N.cls o ∧ N'.g.objs o = N.g.objs o := by
  obtain ⟨N', h1, S'⟩ := handler_state fuel requantize hP hL hI hid
  refine ⟨N', h1, fun x hx => ⟨S'.came.nodes x hx, S'.came.op x hx, S'.came.wiring x hx⟩, fun m o ho hm hrep => ?_⟩
  rcases S'.came.stay m o ho hrep with ⟨h2, h3, h4⟩ | ⟨⟨n, hn⟩, _⟩
  · exact ⟨objId_mem S'.came.wf.names h2, h3, h4⟩
  · rcases hn with hn | hn | hn
    · exact absurd hn (hm n).1
    · exact absurd hn (hm n).2.1
    · exact absurd hn (hm n).2.2

/-- Before that, a quantiser is put behind every input of the network: only quantisers read inputs, and nothing else changes. If the graph has neither
buffers nor parameters of its own, its inputs are then quantised as `C94_layers_partial` requires; what that theorem requires of layers still holds. -/
theorem C94_inputs (lm : LayerMap) (N : Net) (rank : ℕ → ℕ) (depth : ℕ) (hP : N.Proper rank depth) (inputs : List ℕ)
    (hin : ∀ b ∈ inputs, b ∈ N.nodes) :
    (∀ b ∈ inputs, ∀ u ∈ (inputHandler N inputs).nodes, b ∈ (inputHandler N inputs).g.args u → IsQuant (inputHandler N inputs).g u) ∧
    (∀ x ∈ N.nodes, x ∈ (inputHandler N inputs).nodes ∧ (inputHandler N inputs).g.op x = N.g.op x ∧
      List.Forall₂ (After N.nodes (inputHandler N inputs)) ((inputHandler N inputs).g.args x) (N.g.args x)) ∧
    (∀ m o, (m, o) ∈ N.g.mods → (∀ n, m ≠ .quant n ∧ m ≠ .outputQuant n ∧ m ≠ .inputQuant n) →
      (inputHandler N inputs).g.objId m = o ∧ (inputHandler N inputs).cls o = N.cls o ∧ (inputHandler N inputs).g.objs o = N.g.objs o) ∧
    (inputHandler N inputs).Proper rank depth ∧
    ((∀ x ∈ N.nodes, N.g.op x = .raw → x ∈ inputs) → (inputHandler N inputs).InputsQuantised) ∧
    (lm.inst "QuantIdentity" = false → N.PlainLayers lm → (inputHandler N inputs).PlainLayers lm) := by
  unfold inputHandler
  have W := hP.wf
  obtain ⟨W', R, _⟩ := insertAll_refines lm newName_quant inputs N W hin
  have ho := insertAll_only newName_quant inputs N W hin
  have S := stays_insertAll hP.nodes newName_quant inputs N W (Stays.refl N) hin
  refine ⟨ho, fun x hx => ⟨S.nodes x hx, S.op x hx, S.wiring x hx⟩, fun m o h hm => S.objId W' h hm, R.proper hP W', fun hraw => ?_,
    fun hid hL => insertAll_plain hid inputs N W hL hin⟩
  intro x hx a ha hr
  have hnq : ¬ IsQuant (inputs.foldl (fun N' b => insertQuant N' (.quant b) b []) N).g a := by
    rintro ⟨m, hop, _⟩
    rw [hop] at hr
    simp at hr
  have ha0 := (R.fresh a (W'.args x hx a ha)).resolve_right hnq
  rw [R.op a ha0] at hr
  exact ho a (hraw a ha0 hr) x hx ha

/-- The sum of every addition is then read by quantisers only, or by batch norms of which the same holds; nothing else changes, and what `C94_layers_partial`
requires still holds. -/
theorem C94_additions (lm : LayerMap) (N : Net) (rank : ℕ → ℕ) (fuel : ℕ) (hP : N.Proper rank fuel) (hI : N.InputsQuantised) :
    (∀ v ∈ N.nodes, N.g.op v = .add → Requantised lm (addOutputHandler N lm fuel) v) ∧
    (∀ x ∈ N.nodes, x ∈ (addOutputHandler N lm fuel).nodes ∧ (addOutputHandler N lm fuel).g.op x = N.g.op x ∧
      List.Forall₂ (After N.nodes (addOutputHandler N lm fuel)) ((addOutputHandler N lm fuel).g.args x) (N.g.args x)) ∧
    (∀ m o, (m, o) ∈ N.g.mods → (∀ n, m ≠ .quant n ∧ m ≠ .outputQuant n ∧ m ≠ .inputQuant n) →
      (addOutputHandler N lm fuel).g.objId m = o ∧ (addOutputHandler N lm fuel).cls o = N.cls o ∧
        (addOutputHandler N lm fuel).g.objs o = N.g.objs o) ∧
    (addOutputHandler N lm fuel).Proper rank fuel ∧ (addOutputHandler N lm fuel).InputsQuantised ∧
    (lm.inst "QuantIdentity" = false → N.PlainLayers lm → (addOutputHandler N lm fuel).PlainLayers lm) := by
  unfold addOutputHandler
  have W := hP.wf
  have hl : ∀ b ∈ (N.nodes.filter fun v => decide (N.g.op v = .add)).flatMap (outputQuants N lm fuel), b ∈ N.nodes := by
    intro b hb
    obtain ⟨v, hv, hb⟩ := List.mem_flatMap.mp hb
    exact outputQuants_mem N lm fuel v (List.mem_filter.mp hv).1 b hb
  obtain ⟨W', R, _⟩ := insertAll_refines lm newName_output _ N W hl
  have S := stays_insertAll hP.nodes newName_output _ N W (Stays.refl N) hl
  refine ⟨fun v hv hop => ?_, fun x hx => ⟨S.nodes x hx, S.op x hx, S.wiring x hx⟩, fun m o h hm => S.objId W' h hm, R.proper hP W',
    R.inputsQuantised W W' hI, fun hid hL => insertAll_plain hid _ N W hL hl⟩
  refine outputQuants_requantised W lm (hP.walkable hI) fuel (fun x hx => Classical.or_iff_not_imp_left.mpr (hP.depth x hx)) _ hl fuel v hv ?_
    (Nat.le_add_right _ _) fun b hb => List.mem_flatMap.mpr ⟨v, List.mem_filter.mpr ⟨hv, by simpa using hop⟩, hb⟩
  rintro ⟨m, h, _⟩
  rw [hop] at h
  simp at h

/-! ### A graph -/

/-- Linear and convolutional layers and average pooling, as in COMPUTE_LAYER_MAP. The new classes are subclasses of the old ones. -/
def exMap : LayerMap where
  inst := fun c => c ∈ ["Linear", "Conv2d", "AvgPool2d", "QuantLinear", "QuantConv2d"]
  entry := fun c => match c with
    | "Linear" => some (some ("QuantLinear", false))
    | "Conv2d" => some (some ("QuantConv2d", false))
    | "AvgPool2d" => some none
    | _ => none
  bn := fun c => c ∈ ["BatchNorm2d"]

/-- `fc(sigmoid(bn(conv(x_quant(x)))))`, where the sigmoid is a function. -/
def exNet : Net where
  g := {
    adds := []
    op := fun n => ([.raw, .call (.orig "x_quant"), .call (.orig "conv"), .call (.orig "bn"), .other, .call (.orig "fc"), .other] : List Op).getD n .raw
    args := fun n => ([[], [0], [1], [2], [3], [4], [5]] : List (List ℕ)).getD n []
    mods := [(.orig "conv", 0), (.orig "bn", 1), (.orig "fc", 2), (.orig "x_quant", 3)]
    objs := fun n => ([.float, .float, .float, .identity ⟨3, 3, 3⟩] : List Obj).getD n .float
    next := 7 }
  nodes := [0, 1, 2, 3, 4, 5, 6]
  cls := fun n => (["Conv2d", "BatchNorm2d", "Linear", "QuantIdentity"] : List String).getD n ""
  src := id

theorem exNet_calls : ∀ x ∈ exNet.nodes, ∀ m o, exNet.g.op x = .call m → (m, o) ∈ exNet.g.mods →
    (x = 1 ∧ o = 3 ∧ m = .orig "x_quant") ∨ (x = 2 ∧ o = 0 ∧ m = .orig "conv") ∨ (x = 3 ∧ o = 1 ∧ m = .orig "bn") ∨ (x = 5 ∧ o = 2 ∧ m = .orig "fc") := by
  have h : ∀ x ∈ exNet.nodes, ∀ e ∈ exNet.g.mods, exNet.g.op x = .call e.1 →
      (x = 1 ∧ e.2 = 3 ∧ e.1 = .orig "x_quant") ∨ (x = 2 ∧ e.2 = 0 ∧ e.1 = .orig "conv") ∨ (x = 3 ∧ e.2 = 1 ∧ e.1 = .orig "bn") ∨
        (x = 5 ∧ e.2 = 2 ∧ e.1 = .orig "fc") := by decide +kernel
  intro x hx m o hop ho
  exact h x hx (m, o) ho hop

/-- The hypotheses of the theorems hold of it. -/
example : exNet.Proper id 7 ∧ exNet.PlainLayers exMap ∧ exNet.InputsQuantised ∧ exMap.inst "QuantIdentity" = false := by
  refine ⟨⟨by decide +kernel, ?_, by decide +kernel, by decide +kernel, by decide +kernel, by decide +kernel, fun x hx _ a ha _ => ?_, fun x hx _ => ?_, ?_⟩, ⟨?_, ?_, ?_, ?_⟩,
    ?_, by decide +kernel⟩
  · intro e he n hn
    have : ∀ e ∈ exNet.g.mods, e.1 = .orig "conv" ∨ e.1 = .orig "bn" ∨ e.1 = .orig "fc" ∨ e.1 = .orig "x_quant" := by decide +kernel
    rcases this e he with h | h | h | h <;> rw [h] at hn <;> simp at hn
  · have : ∀ x ∈ exNet.nodes, ∀ a ∈ exNet.g.args x, id a < id x := by decide +kernel
    exact this x hx a ha
  · have : ∀ x ∈ exNet.nodes, id x < 7 := by decide +kernel
    exact this x hx
  · intro x hx m hop
    have h : ∀ x ∈ exNet.nodes, (∃ e ∈ exNet.g.mods, exNet.g.op x = .call e.1) ∨ exNet.g.op x = .raw ∨ exNet.g.op x = .other := by decide +kernel
    rcases h x hx with ⟨e, he, h⟩ | h | h
    · rw [hop] at h
      have : m = e.1 := by simpa using h
      exact ⟨e.2, this ▸ he⟩
    · rw [hop] at h; simp at h
    · rw [hop] at h; simp at h
  · intro x hx m o hop ho
    rcases exNet_calls x hx m o hop ho with ⟨_, rfl, _⟩ | ⟨_, rfl, _⟩ | ⟨_, rfl, _⟩ | ⟨_, rfl, _⟩ <;> decide +kernel
  · intro x hx m o hop ho
    rcases exNet_calls x hx m o hop ho with ⟨_, rfl, _⟩ | ⟨_, rfl, _⟩ | ⟨_, rfl, _⟩ | ⟨_, rfl, _⟩ <;> decide +kernel
  · intro x hx m o hop ho _ m' ho'
    have : ∀ e ∈ exNet.g.mods, ∀ e' ∈ exNet.g.mods, e'.2 = e.2 → e'.1 = e.1 := by decide +kernel
    exact this _ ho _ ho' rfl
  · intro x hx y hy m o hopx hopy ho _
    rcases exNet_calls x hx m o hopx ho with ⟨rfl, h, _⟩ | ⟨rfl, h, _⟩ | ⟨rfl, h, _⟩ | ⟨rfl, h, _⟩ <;>
      rcases exNet_calls y hy m o hopy ho with ⟨rfl, h', _⟩ | ⟨rfl, h', _⟩ | ⟨rfl, h', _⟩ | ⟨rfl, h', _⟩ <;> omega
  · intro x hx a ha hraw
    have h : ∀ x ∈ exNet.nodes, ∀ a ∈ exNet.g.args x, exNet.g.op a = .raw → exNet.g.op x = .call (.orig "x_quant") := by decide +kernel
    exact ⟨_, h x hx a ha hraw, by decide +kernel⟩

/-- The convolution reads the quantised input, as before; its output is quantised after the batch norm; the linear layer gets a quantiser before and one
after it. -/
example : ((layerHandler exMap 7 true exNet).map fun N' => ([2, 3, 4, 5, 6].map N'.g.args, N'.clsOf (.orig "conv"), N'.clsOf (.orig "bn"),
      N'.clsOf (.orig "fc"))) = some ([[1], [2], [7], [10], [9]], "QuantConv2d", "BatchNorm2d", "QuantLinear") ∧
    ((layerHandler exMap 7 true exNet).map fun N' => [7, 9, 10].map fun x => (N'.g.op x, N'.g.args x)) =
      some [(.call (.outputQuant 3), [3]), (.call (.outputQuant 5), [5]), (.call (.inputQuant 5), [4])] := by decide +kernel

/-- `fc(bn(x + y))`. -/
def addNet : Net where
  g := {
    adds := [2]
    op := fun n => ([.raw, .raw, .add, .call (.orig "bn"), .call (.orig "fc"), .other] : List Op).getD n .raw
    args := fun n => ([[], [], [0, 1], [2], [3], [4]] : List (List ℕ)).getD n []
    mods := [(.orig "bn", 0), (.orig "fc", 1)]
    objs := fun _ => .float
    next := 6 }
  nodes := [0, 1, 2, 3, 4, 5]
  cls := fun n => (["BatchNorm2d", "Linear"] : List String).getD n ""
  src := id

/-- The hypotheses of `C94_inputs` hold of it, and so do those of `C94_additions` once its inputs are quantised, by `C94_inputs`. -/
theorem addNet_proper : addNet.Proper id 6 := by
  refine ⟨by decide +kernel, ?_, by decide +kernel, by decide +kernel, by decide +kernel, by decide +kernel, fun x hx _ a ha _ => ?_, fun x hx _ => ?_, ?_⟩
  · intro e he n hn
    have : ∀ e ∈ addNet.g.mods, e.1 = .orig "bn" ∨ e.1 = .orig "fc" := by decide +kernel
    rcases this e he with h | h <;> rw [h] at hn <;> simp at hn
  · have : ∀ x ∈ addNet.nodes, ∀ a ∈ addNet.g.args x, id a < id x := by decide +kernel
    exact this x hx a ha
  · have : ∀ x ∈ addNet.nodes, id x < 6 := by decide +kernel
    exact this x hx
  · intro x hx m hop
    have h : ∀ x ∈ addNet.nodes, (∃ e ∈ addNet.g.mods, addNet.g.op x = .call e.1) ∨ ∀ m ∈ [addNet.g.op x], m = .raw ∨ m = .add ∨ m = .other := by
      decide +kernel
    rcases h x hx with ⟨e, he, h⟩ | h
    · rw [hop] at h
      have : m = e.1 := by simpa using h
      exact ⟨e.2, this ▸ he⟩
    · have := h _ (List.mem_singleton_self _)
      rw [hop] at this
      simp at this

example : (inputHandler addNet [0, 1]).Proper id 6 ∧ (inputHandler addNet [0, 1]).InputsQuantised := by
  obtain ⟨_, _, _, h1, h2, _⟩ := C94_inputs exMap addNet id 6 addNet_proper [0, 1] (by decide +kernel)
  exact ⟨h1, h2 (by decide +kernel)⟩

/-- The addition reads the two new quantisers; the sum is quantised after the batch norm. -/
example : [2, 3, 4, 5, 6, 7, 8].map (addOutputHandler (inputHandler addNet [0, 1]) exMap 6).g.args = [[6, 7], [2], [8], [4], [0], [1], [3]] := by
  decide +kernel

/-! ### Layers that are called twice -/

/-- Disagreement: every network that calls a layer twice fails with a KeyError, if the class of the new layer is a subclass of a class in the map without
an entry of its own, as QuantLinear and all QuantConv are. -/
theorem C94_shared_layer_raises (lm : LayerMap) (N : Net) (rank : ℕ → ℕ) (depth fuel : ℕ) (requantize : Bool) (hP : N.Proper rank depth)
    (x y : ℕ) (m : Name) (o : ℕ) (hx : x ∈ N.nodes) (hy : y ∈ N.nodes) (hxy : x ≠ y) (hopx : N.g.op x = .call m) (hopy : N.g.op y = .call m)
    (ho : (m, o) ∈ N.g.mods) (hname : ∀ m', (m', o) ∈ N.g.mods → m' = m) (hfloat : N.g.objs o = .float) (hinst : lm.inst (N.cls o) = true) (c : String) (q : Bool)
    (he : lm.entry (N.cls o) = some (some (c, q))) (hsub : lm.inst c = true) (hno : lm.entry c = none) :
    layerHandler lm fuel requantize N = none := by
  have hnew : ¬ NewName m := by
    rintro ⟨n, hn⟩
    have := hP.taken _ ho n hn
    rw [hfloat] at this
    simp [Obj.actQuant] at this
  have key : ∀ x y, x ∈ N.nodes → y ∈ N.nodes → N.g.op x = .call m → N.g.op y = .call m → SharedAs N.nodes N m o x y (fun d => d = N.cls o) :=
    fun x y hx hy hopx hopy => ⟨⟨hP.names, hP.objs, ho, hopx, hopy, hP.nodes x hx, hP.nodes y hy, hnew,
      fun w hw => ⟨hP.nodes w hw, fun m' h => hP.calls w hw m' h⟩⟩, rfl, hname⟩
  obtain ⟨l1, l2, hl⟩ := List.append_of_mem hx
  unfold layerHandler
  by_cases hy2 : y ∈ l2
  · have := known_loop hinst he ⟨hsub, hno⟩ fuel requantize l1 l2 N (key x y hx hy hopx hopy) (fun w hw => hl ▸ hw) hy2
    rwa [hl]
  · have hy1 : y ∈ l1 := by
      rw [hl] at hy
      rcases List.mem_append.mp hy with h | h
      · exact h
      · rcases List.mem_cons.mp h with h | h
        · exact absurd h.symm hxy
        · exact absurd h hy2
    obtain ⟨k1, k2, hk⟩ := List.append_of_mem hy1
    have hl' : N.nodes = k1 ++ y :: (k2 ++ x :: l2) := by rw [hl, hk]; simp
    have := known_loop hinst he ⟨hsub, hno⟩ fuel requantize k1 (k2 ++ x :: l2) N (key y x hy hx hopy hopx) (fun w hw => hl' ▸ hw) (by simp)
    rwa [hl']

/-- `fc(fc(x_quant(x)))`. -/
def twiceNet : Net where
  g := {
    adds := []
    op := fun n => ([.raw, .call (.orig "x_quant"), .call (.orig "fc"), .call (.orig "fc"), .other] : List Op).getD n .raw
    args := fun n => ([[], [0], [1], [2], [3]] : List (List ℕ)).getD n []
    mods := [(.orig "fc", 0), (.orig "x_quant", 1)]
    objs := fun n => ([.float, .identity ⟨1, 1, 1⟩] : List Obj).getD n .float
    next := 5 }
  nodes := [0, 1, 2, 3, 4]
  cls := fun n => (["Linear", "QuantIdentity"] : List String).getD n ""
  src := id

/-- It meets the hypotheses. -/
example : twiceNet.Proper id 5 ∧ (2 : ℕ) ∈ twiceNet.nodes ∧ 3 ∈ twiceNet.nodes ∧ twiceNet.g.op 2 = .call (.orig "fc") ∧
    twiceNet.g.op 3 = .call (.orig "fc") ∧ (Name.orig "fc", 0) ∈ twiceNet.g.mods ∧ (∀ m', (m', 0) ∈ twiceNet.g.mods → m' = .orig "fc") ∧
    twiceNet.g.objs 0 = .float ∧ exMap.inst (twiceNet.cls 0) = true ∧ exMap.entry (twiceNet.cls 0) = some (some ("QuantLinear", false)) ∧
    exMap.inst "QuantLinear" = true ∧ exMap.entry "QuantLinear" = none := by
  refine ⟨⟨by decide +kernel, ?_, by decide +kernel, by decide +kernel, by decide +kernel, by decide +kernel, fun x hx _ a ha _ => ?_, fun x hx _ => ?_, ?_⟩,
    by decide +kernel, by decide +kernel, by decide +kernel, by decide +kernel, by decide +kernel, ?_, by decide +kernel, by decide +kernel,
    by decide +kernel, by decide +kernel, by decide +kernel⟩
  · intro e he n hn
    have : ∀ e ∈ twiceNet.g.mods, e.1 = .orig "fc" ∨ e.1 = .orig "x_quant" := by decide +kernel
    rcases this e he with h | h <;> rw [h] at hn <;> simp at hn
  · have : ∀ x ∈ twiceNet.nodes, ∀ a ∈ twiceNet.g.args x, id a < id x := by decide +kernel
    exact this x hx a ha
  · have : ∀ x ∈ twiceNet.nodes, id x < 5 := by decide +kernel
    exact this x hx
  · intro x hx m hop
    have h : ∀ x ∈ twiceNet.nodes, (∃ e ∈ twiceNet.g.mods, twiceNet.g.op x = .call e.1) ∨ twiceNet.g.op x = .raw ∨ twiceNet.g.op x = .other := by
      decide +kernel
    rcases h x hx with ⟨e, he, h⟩ | h | h
    · rw [hop] at h
      have : m = e.1 := by simpa using h
      exact ⟨e.2, this ▸ he⟩
    · rw [hop] at h; simp at h
    · rw [hop] at h; simp at h
  · intro m' hm'
    have : ∀ e ∈ twiceNet.g.mods, e.2 = 0 → e.1 = .orig "fc" := by decide +kernel
    exact this _ hm' rfl

/-! ### Inputs that stay as they are -/

/-- A layer with two inputs, like attention: the first comes from a quantiser, the second from a function. -/
def twoInputNet : Net where
  g := {
    adds := []
    op := fun n => ([.raw, .call (.orig "x_quant"), .other, .call (.orig "mha"), .other] : List Op).getD n .raw
    args := fun n => ([[], [0], [1], [1, 2], [3]] : List (List ℕ)).getD n []
    mods := [(.orig "mha", 0), (.orig "x_quant", 1)]
    objs := fun n => ([.float, .identity ⟨1, 1, 1⟩] : List Obj).getD n .float
    next := 5 }
  nodes := [0, 1, 2, 3, 4]
  cls := fun n => (["MultiheadAttention", "QuantIdentity"] : List String).getD n ""
  src := id

/-- The map for it; QuantMultiheadAttention is not a subclass. -/
def mhaMap : LayerMap where
  inst := fun c => c ∈ ["MultiheadAttention"]
  entry := fun c => if c = "MultiheadAttention" then some (some ("QuantMultiheadAttention", false)) else none
  bn := fun _ => false

/-- Disagreement: only the first input of a layer with several is quantised, here for the second time; the second, which is not quantised, stays so. -/
theorem C94_second_input_not_quantised :
    ∃ N', layerHandler mhaMap 5 false twoInputNet = some N' ∧ N'.clsOf (.orig "mha") = "QuantMultiheadAttention" ∧ N'.g.args 3 = [5, 2] ∧
      N'.g.op 5 = .call (.inputQuant 3) ∧ N'.g.args 5 = [1] ∧ ¬ Quantised N'.g 2 := by
  have h : ((layerHandler mhaMap 5 false twoInputNet).map fun N' => (N'.clsOf (.orig "mha"), N'.g.args 3, N'.g.op 5, N'.g.args 5, N'.g.op 2)) =
      some ("QuantMultiheadAttention", [5, 2], .call (.inputQuant 3), [1], .other) := by decide +kernel
  obtain ⟨N', h1, h2⟩ := Option.map_eq_some_iff.mp h
  simp only [Prod.mk.injEq] at h2
  obtain ⟨h3, h4, h5, h6, h7⟩ := h2
  refine ⟨N', h1, h3, h4, h5, h6, fun hq => ?_⟩
  cases hq with
  | quant h => obtain ⟨m, hm, _⟩ := h; rw [h7] at hm; simp at hm
  | keep hop => rw [h7] at hop; simp at hop
  | pass hop => rw [h7] at hop; simp at hop

/-- A linear layer that reads a buffer. -/
def bufferNet : Net where
  g := {
    adds := []
    op := fun n => ([.raw, .call (.orig "fc"), .other] : List Op).getD n .raw
    args := fun n => ([[], [0], [1]] : List (List ℕ)).getD n []
    mods := [(.orig "fc", 0)]
    objs := fun _ => .float
    next := 3 }
  nodes := [0, 1, 2]
  cls := fun n => (["Linear"] : List String).getD n ""
  src := id

/-- Disagreement: a layer that reads a buffer or a parameter is replaced, but its input is not quantised. -/
theorem C94_buffer_not_quantised :
    ∃ N', layerHandler exMap 3 true bufferNet = some N' ∧ N'.clsOf (.orig "fc") = "QuantLinear" ∧ N'.g.args 1 = [0] ∧ ¬ Quantised N'.g 0 := by
  have h : ((layerHandler exMap 3 true bufferNet).map fun N' => (N'.clsOf (.orig "fc"), N'.g.args 1, N'.g.op 0)) =
      some ("QuantLinear", [0], .raw) := by decide +kernel
  obtain ⟨N', h1, h2⟩ := Option.map_eq_some_iff.mp h
  simp only [Prod.mk.injEq] at h2
  obtain ⟨h3, h4, h5⟩ := h2
  refine ⟨N', h1, h3, h4, fun hq => ?_⟩
  cases hq with
  | quant h => obtain ⟨m, hm, _⟩ := h; rw [h5] at hm; simp at hm
  | keep hop => rw [h5] at hop; simp at hop
  | pass hop => rw [h5] at hop; simp at hop

end Brevitas.Residual
