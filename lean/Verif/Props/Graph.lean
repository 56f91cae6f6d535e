import Verif.Lemmas.FxCat

/-!
# C44, C46, C56: edits of the traced graph
-/

namespace Brevitas.Props

open Brevitas.Fx Brevitas.Net

variable {V : Type*}

/-! ## C56 -/

/-- C56: replacing the uses of a node keeps every node with its name and operation, keeps the form of its
arguments, and changes exactly the references to the replaced node in the nodes that are not excepted, at any depth inside
the arguments. -/
theorem C56_uses (g : Graph) (a b : ℕ) (exceptions : List ℕ) :
    (replaceAllUsesExcept a b exceptions g).length = g.length ∧
    ∀ (i : ℕ) (n n' : Node), g[i]? = some n → (replaceAllUsesExcept a b exceptions g)[i]? = some n' →
      n'.name = n.name ∧ n'.op = n.op ∧ Arg.skeleton n'.args = Arg.skeleton n.args ∧
      ∀ j : ℕ, n'.refs[j]? = n.refs[j]?.map fun x => if x = a ∧ n.name ∉ exceptions then b else x := by
  rw [replaceAllUsesExcept_eq]
  refine ⟨by simp, ?_⟩
  intro i n n' h1 h2
  rw [List.getElem?_map, h1, Option.map_some, Option.some.injEq] at h2
  subst h2
  refine ⟨rfl, rfl, skeleton_mapList _ _, ?_⟩
  intro j
  simp only [Node.refs, rewire, Arg.refsList_map, List.getElem?_map]

/-- C56: in a well-formed graph, after inserting a call of a module after a node, every node computes what it computed in the
original graph when each user of that node that is not excluded receives the module's output instead of the node's value. -/
theorem C56_insertion (S : Sem V) (g : Graph) (hg : WF [] g) (module newName a : ℕ) (exclude : List ℕ) (ha : a ∈ names g)
    (hnew : newName ∉ names g) (env : ℕ → V) :
    (∀ n ∈ names g, exec S (insertModuleCallAfter module newName a exclude g) env n
      = execVia (fun u x v => if x = a ∧ u ∉ exclude then S.call module [.ref v] else v) S g env n) ∧
    exec S (insertModuleCallAfter module newName a exclude g) env newName
      = S.call module [.ref (exec S (insertModuleCallAfter module newName a exclude g) env a)] := by
  obtain ⟨pre, na, post, rfl, hna, hpre⟩ := exists_split ha
  obtain ⟨w1, w2, w3, w4, w5⟩ := WF_split hg
  rw [hna] at w1 w2 w3 w4 w5
  have hrefs := WF_refs hg
  have hbr : ∀ n ∈ pre ++ na :: post, newName ∉ n.refs := by
    intro n hn hc
    rcases hrefs n hn _ hc with h | h
    · simp at h
    · exact hnew h
  have hnn : newName ∉ names post := by
    intro hc; exact hnew (by simp only [names, List.map_append, List.map_cons, List.mem_append, List.mem_cons]; exact Or.inr (Or.inr hc))
  have hne : newName ≠ a := by rintro rfl; exact hnew ha
  have hform : insertModuleCallAfter module newName a exclude (pre ++ na :: post)
      = pre ++ na :: ⟨newName, .call module, [.ref a]⟩ :: post.map (rewire a newName (newName :: exclude)) := by
    rw [insertModuleCallAfter, insertCallAfter_split module newName a pre post na hna hpre, replaceAllUsesExcept_eq]
    rw [List.map_append, List.map_cons, List.map_cons, map_rewire_of_notMem _ _ _ pre w4, rewire_of_notMem _ _ _ na w5]
    congr 3
    simp [rewire, Arg.mapList, Arg.map]
  rw [hform]
  have hview : ∀ n ∈ pre ++ na :: post, n.name ≠ newName := by
    intro n hn hc
    exact hnew (by rw [← hc]; exact List.mem_map_of_mem hn)
  -- run up to the node
  have hstart : execVia (fun u x v => if x = a ∧ u ∉ exclude then S.call module [.ref v] else v) S (pre ++ [na]) env
      = exec S (pre ++ [na]) env := by
    apply execVia_congr
    intro n hn x hx
    have hxa : x ≠ a := by
      rintro rfl
      rcases List.mem_append.1 hn with h | h
      · exact w4 n h hx
      · rw [List.mem_singleton.1 h] at hx; exact w5 hx
    funext v
    simp [hxa]
  have hsplit : pre ++ na :: post = (pre ++ [na]) ++ post := by simp
  have hsplit' : ∀ l : Graph, pre ++ na :: l = (pre ++ [na]) ++ l := by intro l; simp
  have hpost := exec_rewire S (fun v => S.call module [.ref v]) a newName (newName :: exclude) post
    (exec S (pre ++ [na]) env)
    (Function.update (exec S (pre ++ [na]) env) newName (S.call module [.ref (exec S (pre ++ [na]) env a)])) w3 hnn
    (fun n hn => hbr n (by simp [hn])) (fun n hn => Function.update_of_ne hn _ _) (Function.update_self _ _ _)
  have hvia : execVia (fun u x v => if x = a ∧ u ∉ newName :: exclude then S.call module [.ref v] else v) S post
      (exec S (pre ++ [na]) env)
      = execVia (fun u x v => if x = a ∧ u ∉ exclude then S.call module [.ref v] else v) S post (exec S (pre ++ [na]) env) := by
    apply execVia_congr
    intro n hn x _
    have := hview n (by simp [hn])
    funext v
    simp [this]
  constructor
  · intro n hn
    have hnb : n ≠ newName := by rintro rfl; exact hnew hn
    rw [hsplit', exec_append, exec_cons, hsplit, execVia_append, hstart, ← hvia]
    exact hpost n hnb
  · rw [hsplit', exec_append, exec_cons]
    rw [exec_of_notMem _ _ _ newName (by rw [names_map_rewire]; exact hnn), exec_of_notMem _ _ _ a (by rw [names_map_rewire]; exact w3)]
    simp [Sem.apply, Arg.mapList, Arg.map, Function.update_of_ne hne.symm]

/-- C56: inserting a module that returns its argument changes nothing. -/
theorem C56_identity (S : Sem V) (g : Graph) (hg : WF [] g) (module newName a : ℕ) (exclude : List ℕ) (ha : a ∈ names g)
    (hnew : newName ∉ names g) (hid : ∀ v, S.call module [.ref v] = v) (env : ℕ → V) :
    ∀ n ∈ names g, exec S (insertModuleCallAfter module newName a exclude g) env n = exec S g env n := by
  intro n hn
  rw [(C56_insertion S g hg module newName a exclude ha hnew env).1 n hn]
  simp only [hid]
  have := execVia_congr S (fun u x v => if x = a ∧ u ∉ exclude then v else v) (fun _ _ v => v) g env
    (by intro n _ x _; funext v; simp)
  rw [this]
  rfl

/-- A graph where node 1 is used twice by node 2, inside a list by node 3, and by the output 4. -/
def exampleGraph : Graph :=
  [⟨0, .placeholder 0, []⟩, ⟨1, .call 0, [.ref 0]⟩, ⟨2, .fn 0, [.ref 1, .ref 1]⟩,
    ⟨3, .cat 1, [.seq [.ref 1, .ref 2, .const 5]]⟩, ⟨4, .output, [.seq [.ref 3, .ref 1]]⟩]

example : WF [] exampleGraph := by
  simp [exampleGraph, WF, Node.refs, Arg.refsList, Arg.refs]

example : (insertModuleCallAfter 7 9 1 [3] exampleGraph).map (fun n => (n.name, n.refs))
    = [(0, []), (1, [0]), (9, [1]), (2, [9, 9]), (3, [1, 2]), (4, [3, 9])] := by decide +kernel

/-! ## C44 -/

/-- C44: folding a batch norm with as many channels into a weighted layer of any kind (linear, convolution, transposed,
depthwise, grouped, normalisation; with or without bias) gives a layer that computes, at inference, the layer followed
by the batch norm.  The formula of the batch norm is `BatchNorm.eval`, read for variances with `var + eps > 0`. -/
theorem C44_layer (L : Layer ℝ) (B : BatchNorm) (h : L.outCh = B.features) :
    ∃ L', mergeBn L B = some L' ∧ L'.b.isSome = true ∧ ∀ x, L'.eval x = B.eval (L.eval x) := by
  have hm : ∃ L', mergeBn L B = some L' ∧ L'.b.isSome = true := by
    unfold mergeBn
    rw [if_pos h]
    refine ⟨_, rfl, ?_⟩
    cases L.b <;> rfl
  obtain ⟨L', h1, h2⟩ := hm
  exact ⟨L', h1, h2, mergeBn_eval h1⟩

/-- C44 for a batch norm that follows a batch norm. -/
theorem C44_batch_norm (A B : BatchNorm) (h : A.features = B.features) :
    ∃ A', mergeBnBn A B = some A' ∧ ∀ x, A'.eval x = B.eval (A.eval x) := by
  have hm : ∃ A', mergeBnBn A B = some A' := by
    unfold mergeBnBn
    rw [if_pos h]
    exact ⟨_, rfl⟩
  obtain ⟨A', h1⟩ := hm
  exact ⟨A', h1, mergeBnBn_eval h1⟩

/-- C44 for a whole graph and any list of patterns: when every module is called once, merging all batch norms leaves the value
of every output (and of every other node that is not a module call) unchanged, and the result only calls modules that are
still registered.  Missing: graphs where a module is called more than once, for which the claim is false
(`C44_shared_layer_changed`). -/
theorem C44_graph_partial (patterns : List (ℕ × ℕ)) (st st' : GModel) (hwf : WF [] st.graph)
    (honce : (targets st.graph).Nodup) (hlive : ∀ t ∈ targets st.graph, t ∈ st.live)
    (h : mergeBatchNorm patterns st = some st') (S : Sem (Signal ℝ)) (env : ℕ → Signal ℝ) :
    (∀ n ∈ st.graph, n.op = .output → (∃ n' ∈ st'.graph, n'.name = n.name ∧ n'.op = .output) ∧
      exec (st'.sem S) st'.graph env n.name = exec (st.sem S) st.graph env n.name) ∧
    ∀ t ∈ targets st'.graph, t ∈ st'.live := by
  obtain ⟨h1, h2⟩ := mergeBatchNorm_spec patterns ⟨hwf, honce, hlive⟩ h S env
  refine ⟨fun n hn ho => ?_, h1.live⟩
  obtain ⟨⟨n', h3, h4, h5⟩, h6⟩ := h2 n hn (by rw [ho]; simp)
  exact ⟨⟨n', h3, h4, h5.trans ho⟩, h6⟩

/-- A layer with one channel and one weight. -/
noncomputable def oneWeight (w : ℝ) : Layer ℝ := ⟨.dense, 1, 1, 1, fun _ _ _ => w, none, fun p _ => some p, id⟩

/-- A batch norm that multiplies by `w`. -/
noncomputable def scalingBn (w : ℝ) : BatchNorm := ⟨1, fun _ => 0, fun _ => 1, fun _ => w, fun _ => 0, 0⟩

/-- `conv`, two batch norms in a row, a second `conv`, and the sum of everything. -/
noncomputable def chainModel : GModel :=
  ⟨[⟨0, .placeholder 0, []⟩, ⟨1, .call 0, [.ref 0]⟩, ⟨2, .call 1, [.ref 1]⟩, ⟨3, .call 2, [.ref 2]⟩, ⟨4, .call 3, [.ref 3]⟩,
    ⟨5, .fn 0, [.ref 3, .ref 4]⟩, ⟨6, .output, [.ref 5]⟩],
    fun t => if t = 0 ∨ t = 3 then some (.layer 10 (oneWeight 3)) else if t = 1 ∨ t = 2 then some (.bn 20 (scalingBn 2)) else none,
    [0, 1, 2, 3]⟩

example : WF [] chainModel.graph ∧ (targets chainModel.graph).Nodup ∧ (∀ t ∈ targets chainModel.graph, t ∈ chainModel.live) := by
  refine ⟨?_, ?_, ?_⟩
  · simp [chainModel, WF, Node.refs, Arg.refsList, Arg.refs]
  · simp [chainModel, targets]
  · simp [chainModel, targets]

/-- Both batch norms are merged into the first layer. -/
example : ∃ st', mergeBatchNorm [(10, 20), (20, 20)] chainModel = some st' ∧
    st'.graph = [⟨0, .placeholder 0, []⟩, ⟨1, .call 0, [.ref 0]⟩, ⟨4, .call 3, [.ref 1]⟩,
      ⟨5, .fn 0, [.ref 1, .ref 4]⟩, ⟨6, .output, [.ref 5]⟩] ∧ st'.live = [0, 3] :=
  ⟨_, rfl, rfl, rfl⟩

/-- A layer called twice, with a batch norm after the first call only. -/
noncomputable def sharedModel : GModel :=
  ⟨[⟨0, .placeholder 0, []⟩, ⟨1, .call 0, [.ref 0]⟩, ⟨2, .call 1, [.ref 1]⟩, ⟨3, .call 0, [.ref 0]⟩, ⟨4, .output, [.ref 3, .ref 2]⟩],
    fun t => if t = 0 then some (.layer 10 (oneWeight 1)) else if t = 1 then some (.bn 20 (scalingBn 2)) else none, [0, 1]⟩

/-- C44 is false of the code when the layer is called at another place too: the check on the number of users is about the
node, not the module, so the other call gets the merged weights. -/
theorem C44_shared_layer_changed : ∃ (st st' : GModel) (S : Sem (Signal ℝ)) (out : ℕ), WF [] st.graph ∧
    mergeBatchNorm [(10, 20)] st = some st' ∧
    exec (st'.sem S) st'.graph (fun _ _ _ => 0) out ≠ exec (st.sem S) st.graph (fun _ _ _ => 0) out := by
  refine ⟨sharedModel, _, ⟨fun _ _ _ => 1, fun _ _ _ _ => 0, fun _ _ _ _ => 0, fun _ _ _ _ => 0, firstTensor⟩, 4, ?_, rfl, ?_⟩
  · simp [sharedModel, WF, Node.refs, Arg.refsList, Arg.refs]
  · intro h
    have := congrFun (congrFun h 0) 0
    simp [exec, execVia, sharedModel, Sem.apply, GModel.sem, Arg.mapList, Arg.map, rewire, replaceAllUsesWith, Function.update,
      Mod.forward, firstTensor, oneWeight, scalingBn, mulAddFromBn, Layer.eval, Layer.sample, Layer.biasAt] at this

/-! ## C46 -/

section Collapse

variable {K : Type*} [Zero K]

/-- C46 for the collapsing of nested concatenations: in a graph where no concatenation is an operand of concatenations more than
once, and where no concatenation raises, collapsing keeps every node that is not a concatenation, and every node that is
left has the value it had, whatever the other operations are.  Missing: concatenations used several times, for which the
claim is false (`C46_repeated_operand_changed`, `C46_shared_operand_changed`). -/
theorem C46_collapse_partial (S : Sem (Option (NdTensor K))) (hS : S.cat = catOp) (g : Graph) (hwf : WF [] g)
    (env : ℕ → Option (NdTensor K)) (hok : ∀ n ∈ g, ∀ d, n.op = .cat d → exec S g env n.name ≠ none)
    (honce : ∀ n ∈ g, ∀ d, n.op = .cat d → (catRefs g).count n.name ≤ 1) :
    (∀ n ∈ g, (∀ d, n.op ≠ .cat d) → n ∈ collapse g) ∧
    (∀ n ∈ names (collapse g), exec S (collapse g) env n = exec S g env n) :=
  collapseN_spec S hS env g.length g ⟨hwf, hok, honce⟩

/-- C46: the loop ends, after at most as many edits as there are nodes. -/
theorem C46_collapse_terminates (g : Graph) : collapseStep (collapse g) = none :=
  collapseN_converged g.length g le_rfl

/-- C46 for one nested concatenation of any operands (repetitions included): it is the flat concatenation. -/
theorem C46_nested (d : ℤ) (pre ts post : List (NdTensor K)) (t u : NdTensor K) (h1 : NdTensor.cat d ts = some t)
    (h2 : NdTensor.cat d (pre ++ t :: post) = some u) : NdTensor.cat d (pre ++ ts ++ post) = some u :=
  NdTensor.cat_flatten h1 h2

end Collapse

/-- A vector with `n` entries equal to 1. -/
def ones (n : ℕ) : NdTensor ℚ := ⟨[n], fun _ => 1⟩

/-- Inputs are vectors of different lengths; concatenation is concatenation; other operations return their first operand. -/
def vecSem : Sem (Option (NdTensor ℚ)) :=
  ⟨fun k => some (ones (k + 1)), fun _ _ => none, fun _ _ => none, catOp, fun as => match as with
    | .ref v :: _ => v
    | _ => none⟩

/-- `cat([x, cat([y, x]), z])`. -/
def nestedCats : Graph :=
  [⟨0, .placeholder 0, []⟩, ⟨1, .placeholder 1, []⟩, ⟨2, .cat 0, [.seq [.ref 1, .ref 0]]⟩,
    ⟨3, .cat 0, [.seq [.ref 0, .ref 2, .ref 1]]⟩, ⟨4, .output, [.ref 3]⟩]

example : WF [] nestedCats ∧ (∀ n ∈ nestedCats, (catRefs nestedCats).count n.name ≤ 1 ∨ n.name ∈ [0, 1]) ∧
    (exec vecSem nestedCats (fun _ => none) 3).isSome = true ∧
    (collapse nestedCats).map (fun n => (n.name, n.refs)) = [(0, []), (1, []), (3, [0, 1, 0, 1]), (4, [3])] := by
  refine ⟨?_, ?_, ?_, ?_⟩
  · simp [nestedCats, WF, Node.refs, Arg.refsList, Arg.refs]
  · simp [nestedCats, catRefs, Node.refs, Arg.refsList, Arg.refs]
  · decide +kernel
  · decide +kernel

/-- C46 is false of the code when a concatenation is repeated in the operands of another one: `cat([c, c])` with
`c = cat([x, x])` becomes `cat([x, x])`. -/
theorem C46_repeated_operand_changed : ∃ g : Graph, WF [] g ∧
    (exec vecSem g (fun _ => none) 3).map NdTensor.shape = some [4] ∧
    (exec vecSem (collapse g) (fun _ => none) 3).map NdTensor.shape = some [2] ∧
    ∃ n ∈ g, n.name = 3 ∧ n.op = .output := by
  refine ⟨[⟨0, .placeholder 0, []⟩, ⟨1, .cat 0, [.seq [.ref 0, .ref 0]]⟩, ⟨2, .cat 0, [.seq [.ref 1, .ref 1]]⟩,
    ⟨3, .output, [.ref 2]⟩], ?_, ?_, ?_, ?_⟩
  · simp [WF, Node.refs, Arg.refsList, Arg.refs]
  · decide +kernel
  · decide +kernel
  · exact ⟨⟨3, .output, [.ref 2]⟩, by simp, rfl, rfl⟩

/-- C46 is false of the code even when all operands of each concatenation are different: a concatenation used both by
a concatenation and by the one nested in it is merged once instead of twice. -/
theorem C46_shared_operand_changed : ∃ g : Graph, WF [] g ∧ (∀ n ∈ g, n.refs.Nodup) ∧
    (exec vecSem g (fun _ => none) 4).map NdTensor.shape = some [5] ∧
    (exec vecSem (collapse g) (fun _ => none) 4).map NdTensor.shape = some [4] ∧
    ∃ n ∈ g, n.name = 4 ∧ n.op = .output := by
  refine ⟨[⟨0, .placeholder 0, []⟩, ⟨5, .placeholder 2, []⟩, ⟨1, .cat 0, [.seq [.ref 0]]⟩, ⟨2, .cat 0, [.seq [.ref 1, .ref 5]]⟩,
    ⟨3, .cat 0, [.seq [.ref 1, .ref 2]]⟩, ⟨4, .output, [.ref 3]⟩], ?_, ?_, ?_, ?_, ?_⟩
  · simp [WF, Node.refs, Arg.refsList, Arg.refs]
  · simp [Node.refs, Arg.refsList, Arg.refs]
  · decide +kernel
  · decide +kernel
  · exact ⟨⟨4, .output, [.ref 3]⟩, by simp, rfl, rfl⟩

end Brevitas.Props
