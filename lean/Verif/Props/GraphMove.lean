import Verif.Lemmas.FxMove

/-!
# C46, second part: moving a batch norm before a concatenation

`graph/fixed_point.py`, `MoveSplitBatchNormBeforeCat`.
-/

namespace Brevitas.Props

open Brevitas.Fx Brevitas.Net

/-! ## An example: two one-channel layers, concatenated and normalised -/

/-- A layer with one channel that returns its input, and raises if the input has not one channel. -/
noncomputable def oneChannel : TMod := .layer true 1 fun as =>
  match as with
  | [.ref (some t)] => if t.shape[1]? = some 1 then some t else none
  | _ => none

/-- A batch norm that only divides by `sqrt (1 + eps)`. -/
noncomputable def plainBn (eps : ℝ) : BatchNorm := ⟨2, fun _ => 0, fun _ => 1, fun _ => 1, fun _ => 0, eps⟩

/-- `bn(cat([layer10(x), layer11(x)], dim=1))`, and `layer20(x)` on the side. -/
def moveGraph : Graph := [⟨0, .placeholder 0, []⟩, ⟨1, .call 10, [.ref 0]⟩, ⟨2, .call 11, [.ref 0]⟩,
  ⟨3, .cat 1, [.seq [.ref 1, .ref 2]]⟩, ⟨4, .call 12, [.ref 3]⟩, ⟨5, .output, [.ref 4]⟩, ⟨6, .call 20, [.ref 0]⟩]

/-- The model: modules 10, 11 and 20 are one-channel layers, module 12 is the batch norm. -/
noncomputable def moveModel (eps : ℝ) : TModel :=
  ⟨moveGraph, fun t => if t = 10 ∨ t = 11 ∨ t = 20 then some oneChannel
    else if t = 12 then some (.bn true true (plainBn eps)) else none⟩

/-- The input is a `1 x 1` tensor of ones. -/
noncomputable def moveSem : Sem (Option (NdTensor ℝ)) :=
  ⟨fun _ => some ⟨[1, 1], fun _ => 1⟩, fun _ _ => none, fun _ _ => none, catOp,
    fun as => match as with | .ref x :: _ => x | _ => none⟩

theorem moveModel_good : MoveGood moveSem (fun _ => none) (moveModel defaultEps) := by
  refine ⟨?_, ?_, ?_, ?_, ?_⟩
  · simp [moveModel, moveGraph, WF, Node.refs, Arg.refsList, Arg.refs]
  · intro t b B h
    simp only [moveModel, oneChannel] at h
    split_ifs at h with h1 h2
    · simp at h
    · simp only [Option.some.injEq, TMod.bn.injEq] at h
      rw [← h.2.2]
      rfl
  · intro t b B h
    simp only [moveModel, oneChannel] at h
    split_ifs at h with h1 h2
    · simp at h
    · subst h2
      decide
  · intro t m h as u hu
    simp only [moveModel] at h
    split_ifs at h with h1 h2
    · simp only [Option.some.injEq] at h
      subst h
      simp only [oneChannel, TMod.forward] at hu
      split at hu
      · split_ifs at hu with hs
        simp only [Option.some.injEq] at hu
        subst hu
        exact hs
      · simp at hu
    · simp only [Option.some.injEq] at h
      subst h
      obtain ⟨t0, _, h3⟩ := forward_bn_some (by rw [hu]; simp)
      rw [h3] at hu
      rw [bnTensor_shape hu]
      unfold bnTensor at hu
      split_ifs at hu with hf
      rw [hf]
      rfl
  · intro n hn t b B hop h
    have ht : t = 12 := by
      simp only [moveModel, oneChannel] at h
      split_ifs at h with h1 h2
      · simp at h
      · exact h2
    subst ht
    have h4 : n.name = 4 := by
      simp only [moveModel, moveGraph, List.mem_cons, List.not_mem_nil, or_false] at hn
      rcases hn with rfl | rfl | rfl | rfl | rfl | rfl | rfl <;> simp_all
    rw [h4]
    obtain ⟨v, hv⟩ : ∃ v, exec ((moveModel defaultEps).sem moveSem) (moveModel defaultEps).graph (fun _ => none) 4 = some v :=
      ⟨_, rfl⟩
    rw [hv]
    simp

/-! ## One step -/

/-- C46. One edit of `MoveSplitBatchNormBeforeCat` (the batch norm that follows a concatenation is split and its parts
are inserted before it): the concatenation now computes what the batch norm computed, every other node of the original graph
except the batch norm is kept and has the same value, and modules that were called are unchanged.  Partial: the batch norms
have the default `eps`, they are called by one node and do not raise, modules have as many output channels as they declare,
and the names given to the new modules (`bnname_0`, `bnname_1`, ...) and nodes are not used. -/
theorem C46_move_partial (S : Sem (Option (NdTensor ℝ))) (hS : S.cat = catOp) (env : ℕ → Option (NdTensor ℝ))
    (moduleName nodeName : ℕ → ℕ) (hm : Function.Injective moduleName) (hn : Function.Injective nodeName)
    (st st' : TModel) (hst : MoveGood S env st)
    (hfm : ∀ i, moduleName i ∉ targets st.graph) (hfn : ∀ i, nodeName i ∉ names st.graph)
    (h : moveStep moduleName nodeName st = some (some st')) :
    ∃ cat ∈ st.graph, ∃ bn ∈ st.graph, ∃ tb b B,
      cat.op = .cat 1 ∧ bn.op = .call tb ∧ st.mods tb = some (.bn true b B) ∧ cat.name ∈ bn.refs ∧
      exec (st'.sem S) st'.graph env cat.name = exec (st.sem S) st.graph env bn.name ∧
      (∀ n ∈ names st.graph, n ≠ cat.name → n ≠ bn.name →
        exec (st'.sem S) st'.graph env n = exec (st.sem S) st.graph env n) ∧
      (∀ n ∈ st.graph, n.name ≠ bn.name → ∃ n' ∈ st'.graph, n'.name = n.name ∧ n'.op = n.op) ∧
      (∀ t ∈ targets st.graph, t ≠ tb → st'.mods t = st.mods t) ∧ MoveGood S env st' := by
  unfold moveStep at h
  obtain ⟨cat, hcat, h⟩ := List.exists_of_findSome?_eq_some h
  obtain ⟨hgood, bn, hbn, tb, b, B, h1, h2, h3, h4, h5, h6, h7⟩ := moveNode_spec S hS env hm hn hst hfm hfn hcat h
  obtain ⟨_, _, _, _, _, _, hop, _⟩ := moveNode_some h
  exact ⟨cat, hcat, bn, hbn, tb, b, B, hop, h1, h2, (onlyUser_some h3).2.1, h4, h5, h6, h7, hgood⟩

example : ∃ st', moveStep (30 + ·) (30 + ·) (moveModel defaultEps) = some (some st') ∧
    names st'.graph = [0, 1, 30, 2, 31, 3, 5, 6] ∧
    (∀ i, 30 + i ∉ targets moveGraph) ∧ (∀ i, 30 + i ∉ names moveGraph) ∧
    MoveGood moveSem (fun _ => none) (moveModel defaultEps) := by
  refine ⟨_, rfl, rfl, ?_, ?_, moveModel_good⟩
  · intro i
    simp [targets, moveGraph]
    omega
  · intro i
    simp [names, moveGraph]
    omega

/-! ## Any number of steps -/

/-- The model after any number of edits, each with fresh names. -/
inductive Moved : TModel → TModel → Prop
  | refl (st : TModel) : Moved st st
  | step {st st' st'' : TModel} (moduleName nodeName : ℕ → ℕ) (hm : Function.Injective moduleName)
      (hn : Function.Injective nodeName) (hfm : ∀ i, moduleName i ∉ targets st.graph)
      (hfn : ∀ i, nodeName i ∉ names st.graph) (h : moveStep moduleName nodeName st = some (some st')) (rest : Moved st' st'') :
      Moved st st''

/-- C46. After any number of edits, every node that is neither a concatenation nor a call of a batch norm is still
there, with the same operation and the same value: in particular the output of the graph. -/
theorem C46_move_repeated_partial (S : Sem (Option (NdTensor ℝ))) (hS : S.cat = catOp) (env : ℕ → Option (NdTensor ℝ))
    (st st' : TModel) (hst : MoveGood S env st) (h : Moved st st') :
    ∀ n ∈ st.graph, (∀ d, n.op ≠ .cat d) → (∀ t b B, n.op = .call t → st.mods t ≠ some (.bn true b B)) →
      (∃ n' ∈ st'.graph, n'.name = n.name ∧ n'.op = n.op) ∧
      exec (st'.sem S) st'.graph env n.name = exec (st.sem S) st.graph env n.name := by
  induction h with
  | refl st => exact fun n hn _ _ => ⟨⟨n, hn, rfl, rfl⟩, rfl⟩
  | step mN nN hm hn hfm hfn h _ ih =>
    rename_i s1 s2 s3 _
    intro n hng hncat hnbn
    obtain ⟨cat, hcat, bn, hbn, tb, b, B, hop, h1, h2, _, _, h5, h6, h7, hgood⟩ :=
      C46_move_partial S hS env mN nN hm hn s1 s2 hst hfm hfn h
    have hinj : ∀ m ∈ s1.graph, m.name = n.name → m = n := fun m hm hc =>
      List.inj_on_of_nodup_map (WF_names hst.wf).1 hm hng hc
    have hnb : n.name ≠ bn.name := by
      intro hc
      have := hinj bn hbn hc.symm
      subst this
      exact hnbn tb b B h1 h2
    have hnc : n.name ≠ cat.name := by
      intro hc
      have := hinj cat hcat hc.symm
      subst this
      exact hncat 1 hop
    obtain ⟨n', hn', e1, e2⟩ := h6 n hng hnb
    obtain ⟨⟨n'', hn'', e3, e4⟩, e5⟩ := ih hgood n' hn' (fun d => e2 ▸ hncat d) (by
      intro t b' B' ht hc
      rw [e2] at ht
      have htm := mem_targets hng ht
      have htb : t ≠ tb := by
        rintro rfl
        exact hnbn t b B ht h2
      rw [h7 t htm htb] at hc
      exact hnbn t b' B' ht hc)
    refine ⟨⟨n'', hn'', e3.trans e1, e4.trans e2⟩, ?_⟩
    rw [← e1, e5, e1, h5 n.name (List.mem_map_of_mem hng) hnc hnb]

example : ∃ st', Moved (moveModel defaultEps) st' ∧ st'.graph.length = 8 := by
  refine ⟨_, .step (30 + ·) (30 + ·) (fun _ _ h => by simpa using h) (fun _ _ h => by simpa using h) ?_ ?_ rfl (.refl _), rfl⟩
  · intro i
    simp [targets, moveGraph, moveModel]
    omega
  · intro i
    simp [names, moveGraph, moveModel]
    omega

/-! ## What the hypotheses exclude -/

/-- C46 fails for a batch norm with another `eps`: the parts are built with the default one.  Here the batch norm with
`eps = 0` returned its input. -/
theorem C46_move_eps_changed : ∃ st', moveStep (30 + ·) (30 + ·) (moveModel 0) = some (some st') ∧
    (exec ((moveModel 0).sem moveSem) moveGraph (fun _ => none) 5).map (fun t => t.data [0, 0]) = some 1 ∧
    (exec (st'.sem moveSem) st'.graph (fun _ => none) 5).map (fun t => t.data [0, 0]) ≠ some 1 := by
  refine ⟨_, rfl, ?_, ?_⟩
  · have h : (exec ((moveModel 0).sem moveSem) moveGraph (fun _ => none) 5).map (fun t => t.data [0, 0])
        = some ((1 - 0) / Real.sqrt (1 + 0) * 1 + 0) := rfl
    rw [h]
    simp
  · intro hc
    have h : some ((1 - 0) / Real.sqrt (1 + defaultEps) * 1 + 0) = some (1 : ℝ) := hc
    simp only [sub_zero, mul_one, add_zero, Option.some.injEq] at h
    have hs : Real.sqrt (1 + defaultEps) = 1 := by
      have h0 : Real.sqrt (1 + defaultEps) ≠ 0 := by
        intro h0
        rw [h0] at h
        simp at h
      field_simp at h
      exact h.symm
    rw [Real.sqrt_eq_one] at hs
    unfold defaultEps at hs
    norm_num at hs

/-- C46 fails when the name of a new module is taken: with the batch norm called `bn` and a layer called `bn_0`, the
layer is overwritten by the first part of the batch norm. -/
theorem C46_move_name_clash_changed : ∃ st', moveStep (20 + ·) (30 + ·) (moveModel defaultEps) = some (some st') ∧
    (exec ((moveModel defaultEps).sem moveSem) moveGraph (fun _ => none) 6).map (fun t => t.data [0, 0]) = some 1 ∧
    (exec (st'.sem moveSem) st'.graph (fun _ => none) 6).map (fun t => t.data [0, 0]) ≠ some 1 := by
  refine ⟨_, rfl, rfl, ?_⟩
  intro hc
  have h : some ((1 - 0) / Real.sqrt (1 + defaultEps) * 1 + 0) = some (1 : ℝ) := hc
  simp only [sub_zero, mul_one, add_zero, Option.some.injEq] at h
  have hs : Real.sqrt (1 + defaultEps) = 1 := by
    have h0 : Real.sqrt (1 + defaultEps) ≠ 0 := by
      intro h0
      rw [h0] at h
      simp at h
    field_simp at h
    exact h.symm
  rw [Real.sqrt_eq_one] at hs
  unfold defaultEps at hs
  norm_num at hs

end Brevitas.Props
