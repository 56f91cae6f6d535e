import Verif.Lemmas.ResidualWiring

/-!
# C93: aligning the inputs of additions and concatenations
-/

namespace Brevitas.Residual

/-- If the additions and concatenations of a graph (at most 9998) have no inputs in common, graph quantisation aligns them all: it returns, and then
all inputs of every concatenation come from one quantiser, and all inputs of every addition from quantisers with one scale. -/
theorem C93_aligns_partial (g : Graph) (fuel : ℕ) (V : ℕ → ℕ → Prop) (M : ℕ → Name → Prop) (hsep : Separate g fuel V M) (hnum : Numbered g V)
    (hmany : g.adds.length < 9999) :
    ∃ g', residual fuel g = some g' ∧ g'.adds = g.adds ∧ ∀ v ∈ g.adds, InputsAligned g' v := by
  by_cases h0 : g.adds = []
  · refine ⟨g, ?_, rfl, by rw [h0]; simp⟩
    unfold residual
    rw [residualLoop, h0]
    rfl
  obtain ⟨v0, hv0⟩ := List.exists_mem_of_ne_nil _ h0
  have hpos : 0 < g.next := lt_of_le_of_lt (Nat.zero_le _) (hnum.nodes v0 hv0 v0 (hsep.inputs v0 hv0).1)
  refine loop_rounds fuel 9999 g V M g.adds ⟨hnum.keys, hnum.objs, hpos, hnum.nodes, fun v hv => (hsep.inputs v hv).1, hsep.nodes, hsep.modules,
    fun v hv m hm => Or.inl (hsep.names v hv m hm), ?_, fun v hv h => absurd hv h⟩ hmany
  intro v hv _
  refine ⟨fun h => ?_, fun b hb => walk_comesFrom ((hsep.inputs v hv).2 b hb)⟩
  obtain ⟨s, hs⟩ := hsep.names v hv _ h
  exact absurd hs (by simp)

/-- Whatever the graph: if it returns, it has done nothing but insert quantisers between nodes and replace quantised activations by others of their
kind. -/
theorem C93_only_quantisers (g g' : Graph) (fuel : ℕ) (hkeys : (g.mods.map Prod.fst).Nodup) (hobjs : ∀ e ∈ g.mods, e.2 < g.next)
    (h : residual fuel g = some g') : OnlyQuantisers g g' := by
  refine (onlyInv_loop fuel 9999 g g' ⟨⟨rfl, fun _ _ => rfl, fun x _ => ?_, fun s o hso => ⟨o, hso, rfl⟩⟩, le_refl _, hkeys, hobjs⟩ h).only
  exact List.forall₂_same.mpr fun a _ => .refl a

/-! ### A graph -/

/-- Two inputs with quantisers, `x` and `y`, are added; the output of a convolution is concatenated with that of a ReLU, after max pooling. -/
def exGraph : Graph where
  adds := [2, 7]
  op := fun n => ([.call (.orig "x_quant"), .call (.orig "y_quant"), .add, .call (.orig "conv"), .call (.orig "relu"), .call (.orig "pool"), .look,
    .cat] : List Op).getD n .raw
  args := fun n => ([[8], [9], [0, 1], [2], [2], [4], [3], [6, 5]] : List (List ℕ)).getD n []
  mods := [(.orig "conv", 0), (.orig "relu", 1), (.orig "pool", 2), (.orig "x_quant", 3), (.orig "y_quant", 4)]
  objs := fun n => ([.float, .act ⟨1, 1, 1⟩ false, .keep, .identity ⟨3, 3, 3⟩, .identity ⟨4, 4, 4⟩] : List Obj).getD n .float
  next := 10

/-- The nodes and modules of the two. -/
def exV (v b : ℕ) : Prop := if v = 2 then b ∈ [2, 0, 1] else b ∈ [7, 3, 4, 5, 6]

def exM (v : ℕ) (m : Name) : Prop :=
  if v = 2 then m ∈ [.orig "x_quant", .orig "y_quant"] else m ∈ [.orig "conv", .orig "relu", .orig "pool"]

theorem exGraph_only : ∀ m o, (m, o) ∈ exGraph.mods → ∀ m', (m', o) ∈ exGraph.mods → m' = m := by
  have : ∀ e ∈ exGraph.mods, ∀ e' ∈ exGraph.mods, e'.2 = e.2 → e'.1 = e.1 := by decide +kernel
  intro m o h m' h'
  exact this _ h _ h' rfl

/-- The hypotheses of the theorem hold of it. -/
theorem exGraph_separate : Separate exGraph 3 exV exM ∧ Numbered exGraph exV ∧ exGraph.adds.length < 9999 := by
  refine ⟨⟨by decide +kernel, ?_, ?_, ?_, ?_⟩, ⟨by decide +kernel, by decide +kernel, ?_⟩, by decide +kernel⟩
  · intro v hv
    have : v = 2 ∨ v = 7 := by simpa [exGraph] using hv
    rcases this with rfl | rfl
    · refine ⟨by simp [exV], fun b hb => ?_⟩
      have : b = 0 ∨ b = 1 := by simpa [exGraph] using hb
      rcases this with rfl | rfl
      · exact .module (m := .orig "x_quant") (o := 3) (by simp [exV]) (by decide +kernel) (by simp [exM]) (by decide +kernel) (by decide +kernel)
          (exGraph_only _ _ (by decide +kernel))
      · exact .module (m := .orig "y_quant") (o := 4) (by simp [exV]) (by decide +kernel) (by simp [exM]) (by decide +kernel) (by decide +kernel)
          (exGraph_only _ _ (by decide +kernel))
    · refine ⟨by simp [exV], fun b hb => ?_⟩
      have : b = 6 ∨ b = 5 := by simpa [exGraph] using hb
      rcases this with rfl | rfl
      · refine .shape (by simp [exV]) (by decide +kernel) fun a ha => ?_
        have : a = 3 := by simpa [exGraph] using ha
        subst this
        exact .module (m := .orig "conv") (o := 0) (by simp [exV]) (by decide +kernel) (by simp [exM]) (by decide +kernel) (by decide +kernel)
          (exGraph_only _ _ (by decide +kernel))
      · refine .keep (m := .orig "pool") (by simp [exV]) (by decide +kernel) (by simp [exM]) (by decide +kernel) fun a ha => ?_
        have : a = 4 := by simpa [exGraph] using ha
        subst this
        exact .module (m := .orig "relu") (o := 1) (by simp [exV]) (by decide +kernel) (by simp [exM]) (by decide +kernel) (by decide +kernel)
          (exGraph_only _ _ (by decide +kernel))
  · intro v hv w hw hvw b hb hb'
    have h1 : v = 2 ∨ v = 7 := by simpa [exGraph] using hv
    have h2 : w = 2 ∨ w = 7 := by simpa [exGraph] using hw
    rcases h1 with rfl | rfl <;> rcases h2 with rfl | rfl
    · exact hvw rfl
    · simp [exV] at hb hb'; omega
    · simp [exV] at hb hb'; omega
    · exact hvw rfl
  · intro v hv w hw hvw m hm hm'
    have h1 : v = 2 ∨ v = 7 := by simpa [exGraph] using hv
    have h2 : w = 2 ∨ w = 7 := by simpa [exGraph] using hw
    rcases h1 with rfl | rfl <;> rcases h2 with rfl | rfl
    · exact hvw rfl
    · simp [exM] at hm hm'; rcases hm with rfl | rfl <;> simp at hm'
    · simp [exM] at hm hm'; rcases hm' with rfl | rfl <;> simp at hm
    · exact hvw rfl
  · intro v hv m hm
    have h1 : v = 2 ∨ v = 7 := by simpa [exGraph] using hv
    rcases h1 with rfl | rfl
    · simp [exM] at hm; rcases hm with rfl | rfl <;> exact ⟨_, rfl⟩
    · simp [exM] at hm; rcases hm with rfl | rfl | rfl <;> exact ⟨_, rfl⟩
  · intro v hv b hb
    have h1 : v = 2 ∨ v = 7 := by simpa [exGraph] using hv
    show b < 10
    rcases h1 with rfl | rfl
    · simp [exV] at hb; omega
    · simp [exV] at hb; omega

/-- Neither is aligned to begin with. Afterwards the two inputs share a quantiser, the convolution has got one, and the ReLU has its `tensor_quant`. -/
example : aligned exGraph 3 2 = false ∧ aligned exGraph 3 7 = false ∧
    ∃ g', residual 3 exGraph = some g' ∧ g'.objId (.orig "x_quant") = g'.objId (.orig "y_quant") ∧ g'.args 6 = [12] ∧
      g'.op 12 = .call (.quant 7) ∧ g'.args 12 = [3] ∧ g'.obj (.orig "relu") = .act ⟨11, 11, 11⟩ false ∧
      g'.obj (.quant 7) = .identity ⟨11, 11, 11⟩ := by
  refine ⟨by decide +kernel, by decide +kernel, ?_⟩
  refine ⟨alignNode (alignNode exGraph 3 2) 3 7, ?_, by decide +kernel, by decide +kernel, by decide +kernel, by decide +kernel, by decide +kernel,
    by decide +kernel⟩
  have h1 : (exGraph.adds.find? fun v => !aligned exGraph 3 v) = some 2 := by decide +kernel
  have h2 : ((alignNode exGraph 3 2).adds.find? fun v => !aligned (alignNode exGraph 3 2) 3 v) = some 7 := by decide +kernel
  have h3 : ((alignNode (alignNode exGraph 3 2) 3 7).adds.find? fun v => !aligned (alignNode (alignNode exGraph 3 2) 3 7) 3 v) = none := by
    decide +kernel
  unfold residual
  rw [residualLoop, h1]
  dsimp only
  rw [residualLoop, h2]
  dsimp only
  rw [residualLoop, h3]

/-! ### Graphs that are never aligned -/

theorem loop_never {fuel : ℕ} {Inv : Graph → Prop} (h : ∀ g, Inv g → ∃ v, (g.adds.find? fun v => !aligned g fuel v) = some v ∧
    Inv (alignNode g fuel v)) (n : ℕ) (g : Graph) (hg : Inv g) : residualLoop fuel n g = none := by
  induction n generalizing g with
  | zero => rfl
  | succ n ih =>
    obtain ⟨v, h1, h2⟩ := h g hg
    rw [residualLoop, h1]
    exact ih _ h2

theorem find_unaligned {g : Graph} {fuel v : ℕ} (hv : v ∈ g.adds) (h : aligned g fuel v = false) :
    ∃ w, (g.adds.find? fun v => !aligned g fuel v) = some w := by
  cases hf : g.adds.find? fun v => !aligned g fuel v with
  | some w => exact ⟨w, rfl⟩
  | none =>
    rw [List.find?_eq_none] at hf
    exact absurd (by simp [h]) (hf v hv)

/-- An addition or concatenation with an input that is the result of the method `transpose`. -/
structure AddsTransposed (v t : ℕ) (g : Graph) : Prop where
  add : v ∈ g.adds
  vlt : v < g.next
  tlt : t < g.next
  op : g.op t = .transpose
  args : t ∈ g.args v

theorem rewriters_not_insert {g : Graph} {t : ℕ} (ht : g.op t = .transpose) (fuel : ℕ) (same : Bool) (l : List ℕ) :
    Rewriter.insert t ∉ rewriters g fuel same l := by
  induction fuel generalizing same l with
  | zero => simp [rewriters]
  | succ fuel ih =>
    intro hr
    rw [rewriters, List.mem_flatMap] at hr
    obtain ⟨b, -, hr⟩ := hr
    have hne : ∀ o : Op, o ≠ .transpose → g.op b = o → Rewriter.insert t ∉ [Rewriter.insert b] := by
      intro o ho hb h
      obtain rfl : t = b := by simpa using h
      exact ho (by rw [← hb, ht])
    unfold rewriteArg at hr
    cases hop : g.op b with
    | call m =>
      rw [hop] at hr
      dsimp only at hr
      cases hobj : g.obj m with
      | keep => rw [hobj] at hr; exact ih _ _ hr
      | identity tq => rw [hobj] at hr; simp at hr
      | act tq fs =>
        rw [hobj] at hr
        cases fs with
        | false => simp at hr
        | true => exact hne _ (by simp) hop hr
      | float => rw [hobj] at hr; exact hne _ (by simp) hop hr
    | look => rw [hop] at hr; exact ih _ _ hr
    | transpose => rw [hop] at hr; exact ih _ _ hr
    | cat => rw [hop] at hr; exact ih _ _ hr
    | raw => rw [hop] at hr; exact hne _ (by simp) hop hr
    | permute => rw [hop] at hr; exact hne _ (by simp) hop hr
    | add => rw [hop] at hr; exact hne _ (by simp) hop hr
    | other => rw [hop] at hr; exact hne _ (by simp) hop hr

theorem addsTransposed_foldl {v t : ℕ} (m : Name) (S : ℕ) (R : List Rewriter) (hR : Rewriter.insert t ∉ R) (g : Graph) (I : AddsTransposed v t g) :
    AddsTransposed v t (R.foldl (applyRewriter m S) g) := by
  induction R generalizing g with
  | nil => exact I
  | cons r R ih =>
    rw [List.mem_cons, not_or] at hR
    rw [List.foldl_cons]
    refine ih hR.2 _ ?_
    cases r with
    | insert b =>
      have hb : t ≠ b := fun h => hR.1 (by rw [h])
      refine ⟨I.add, Nat.lt_succ_of_lt I.vlt, Nat.lt_succ_of_lt I.tlt, ?_, ?_⟩
      · rw [← I.op]
        have := I.tlt
        exact Function.update_of_ne (by omega) _ _
      · have := I.vlt
        have h1 : (applyRewriter m S g (.insert b)).args v = (g.args v).map (subst b g.next) := if_neg (by omega)
        rw [h1]
        exact List.mem_map.mpr ⟨t, I.args, if_neg hb⟩
    | share o => exact ⟨I.add, I.vlt, I.tlt, I.op, I.args⟩
    | newAct o e => exact ⟨I.add, Nat.lt_succ_of_lt I.vlt, Nat.lt_succ_of_lt I.tlt, I.op, I.args⟩

theorem check_none {g : Graph} {fuel : ℕ} {same : Bool} {l : List ℕ} {t : ℕ} (ht : t ∈ l) (hop : g.op t = .transpose)
    (acc : List (Option Brevitas.Quantize.TensorQuantId)) : none ∈ check g (fuel + 1) same l acc := by
  have keep : ∀ (f : ℕ) (same : Bool) (l : List ℕ) (acc : List (Option Brevitas.Quantize.TensorQuantId)), none ∈ acc → none ∈ check g f same l acc := by
    intro f
    induction f with
    | zero => intro _ _ acc h; exact h
    | succ f ih =>
      intro same l acc h
      rw [check]
      induction l generalizing acc with
      | nil => exact h
      | cons b l ihl =>
        rw [List.foldl_cons]
        apply ihl
        unfold checkArg
        cases g.op b with
        | call m =>
          dsimp only
          by_cases hk : g.obj m = .keep
          · rw [if_pos hk]; exact ih _ _ _ h
          · rw [if_neg hk]
            cases (g.obj m).actQuant with
            | none => simp [h]
            | some tq => dsimp only; split_ifs <;> simp [h]
        | look => exact ih _ _ _ h
        | permute => exact ih _ _ _ h
        | cat => exact ih _ _ _ h
        | add => exact ih _ _ _ h
        | raw => exact h
        | transpose => simp
        | other => simp
  rw [check]
  induction l generalizing acc with
  | nil => simp at ht
  | cons b l ihl =>
    rw [List.foldl_cons]
    rcases List.mem_cons.mp ht with rfl | ht
    · have h1 : none ∈ checkArg g (check g fuel) same acc t := by
        unfold checkArg
        rw [hop]
        simp
      have := keep (fuel + 1) same l _ h1
      rwa [check] at this
    · exact ihl ht _

/-- If an input of an addition or concatenation is the result of the method `transpose`, as in `x.transpose(1, 2) + y`, the graph cannot be
quantised: alignment fails, whatever its inputs are. -/
theorem C93_transpose_method_fails (g : Graph) (fuel v t : ℕ) (hv : v ∈ g.adds) (hvlt : v < g.next) (htlt : t < g.next)
    (hop : g.op t = .transpose) (hargs : t ∈ g.args v) : residual (fuel + 1) g = none := by
  refine loop_never (Inv := AddsTransposed v t) ?_ 9999 g ⟨hv, hvlt, htlt, hop, hargs⟩
  intro g I
  have hun : aligned g (fuel + 1) v = false := by
    unfold aligned
    have := check_none (fuel := fuel) (same := g.isCat v) I.args I.op []
    simp [this]
  obtain ⟨w, hw⟩ := find_unaligned I.add hun
  refine ⟨w, hw, ?_⟩
  refine addsTransposed_foldl _ _ _ (rewriters_not_insert (g := newQuant g w) I.op _ _ _) _ ?_
  exact ⟨I.add, Nat.lt_succ_of_lt I.vlt, Nat.lt_succ_of_lt I.tlt, I.op, I.args⟩

/-- Two quantised inputs, one of them transposed by the method. -/
def transposeGraph : Graph where
  adds := [3]
  op := fun n => ([.call (.orig "x_quant"), .call (.orig "y_quant"), .transpose, .add] : List Op).getD n .raw
  args := fun n => ([[4], [5], [0], [2, 1]] : List (List ℕ)).getD n []
  mods := [(.orig "x_quant", 1), (.orig "y_quant", 2)]
  objs := fun i => .identity ⟨i, i, i⟩
  next := 6

example : residual 3 transposeGraph = none :=
  C93_transpose_method_fails transposeGraph 2 3 2 (by decide) (by decide) (by decide) (by decide) (by decide)

/-- Three inputs with quantisers: the first two are added, and the last two. The quantisers are `a`, `b`, `c`; `d` and `e` are those made for the
additions. -/
def overlapGraph (a b c d e next : ℕ) : Graph where
  adds := [3, 4]
  op := fun n => ([.call (.orig "x_quant"), .call (.orig "y_quant"), .call (.orig "z_quant"), .add, .add] : List Op).getD n .raw
  args := fun n => ([[5], [6], [7], [0, 1], [1, 2]] : List (List ℕ)).getD n []
  mods := [(.orig "x_quant", a), (.orig "y_quant", b), (.orig "z_quant", c), (.quant 3, d), (.quant 4, e)]
  objs := fun i => .identity ⟨i, i, i⟩
  next := next

/-- The graph before the first round. -/
def overlapStart : Graph := { overlapGraph 1 2 3 0 0 8 with mods := [(.orig "x_quant", 1), (.orig "y_quant", 2), (.orig "z_quant", 3)] }

theorem overlap_objs (n : ℕ) : Function.update (fun i => Obj.identity ⟨i, i, i⟩) n (.identity ⟨n, n, n⟩) = fun i => Obj.identity ⟨i, i, i⟩ := by
  funext i
  by_cases h : i = n
  · subst h; simp
  · rw [Function.update_of_ne h]

theorem overlap_round1 (a b n : ℕ) (hab : a ≠ b) (hb : b < n) :
    (overlapGraph a b a b a n).adds.find? (fun v => !aligned (overlapGraph a b a b a n) 3 v) = some 3 ∧
      alignNode (overlapGraph a b a b a n) 3 3 = overlapGraph n n a n a (n + 1) := by
  constructor
  · simp [overlapGraph, aligned, check, checkArg, Graph.isCat, Graph.obj, Graph.objId, Obj.actQuant, Brevitas.Quantize.tensorQuantInList, hab]
  · simp only [alignNode, newQuant, overlapGraph, overlap_objs]
    simp [rewriters, rewriteArg, Graph.isCat, Graph.obj, Graph.objId, applyRewriter, replaceFirst, setName, hb.ne']

theorem overlap_round2 (a b n : ℕ) (hab : a ≠ b) (ha : a < n) :
    (overlapGraph b b a b a n).adds.find? (fun v => !aligned (overlapGraph b b a b a n) 3 v) = some 4 ∧
      alignNode (overlapGraph b b a b a n) 3 4 = overlapGraph n b n b n (n + 1) := by
  have hba : ¬ b = a := Ne.symm hab
  constructor
  · simp [overlapGraph, aligned, check, checkArg, Graph.isCat, Graph.obj, Graph.objId, Obj.actQuant, Brevitas.Quantize.tensorQuantInList, hba]
  · simp only [alignNode, newQuant, overlapGraph, overlap_objs]
    simp [rewriters, rewriteArg, Graph.isCat, Graph.obj, Graph.objId, applyRewriter, replaceFirst, setName, hba, ha.ne']

/-- A network with inputs `x`, `y` and `z` that computes `x + y` and `y + z` cannot be quantised: the two additions undo each other's alignment. -/
theorem C93_overlapping_additions_fail : residual 3 overlapStart = none := by
  have h1 : (overlapStart.adds.find? fun v => !aligned overlapStart 3 v) = some 3 := by decide +kernel
  have h2 : alignNode overlapStart 3 3 = { overlapGraph 8 8 3 0 0 9 with
      mods := [(.orig "x_quant", 8), (.orig "y_quant", 8), (.orig "z_quant", 3), (.quant 3, 8)] } := by
    simp only [alignNode, newQuant, overlapStart, overlapGraph, overlap_objs]
    simp [rewriters, rewriteArg, Graph.isCat, Graph.obj, Graph.objId, applyRewriter, replaceFirst, setName]
  set g1 : Graph := { overlapGraph 8 8 3 0 0 9 with
      mods := [(.orig "x_quant", 8), (.orig "y_quant", 8), (.orig "z_quant", 3), (.quant 3, 8)] } with hg1
  have h3 : (g1.adds.find? fun v => !aligned g1 3 v) = some 4 := by decide +kernel
  have h4 : alignNode g1 3 4 = overlapGraph 9 8 9 8 9 10 := by
    simp only [alignNode, newQuant, hg1, overlapGraph, overlap_objs]
    simp [rewriters, rewriteArg, Graph.isCat, Graph.obj, Graph.objId, applyRewriter, replaceFirst, setName]
  unfold residual
  rw [residualLoop, h1]
  dsimp only
  rw [h2, residualLoop, h3]
  dsimp only
  rw [h4]
  refine loop_never (Inv := fun g => (∃ a b n, a ≠ b ∧ a < n ∧ b < n ∧ g = overlapGraph a b a b a n) ∨
    ∃ a b n, a ≠ b ∧ a < n ∧ b < n ∧ g = overlapGraph b b a b a n) ?_ 9997 _ (Or.inl ⟨9, 8, 10, by decide, by decide, by decide, rfl⟩)
  rintro g (⟨a, b, n, hab, ha, hb, rfl⟩ | ⟨a, b, n, hab, ha, hb, rfl⟩)
  · obtain ⟨h1, h2⟩ := overlap_round1 a b n hab hb
    exact ⟨3, h1, Or.inr ⟨a, n, n + 1, by omega, by omega, by omega, h2⟩⟩
  · obtain ⟨h1, h2⟩ := overlap_round2 a b n hab ha
    exact ⟨4, h1, Or.inl ⟨n, b, n + 1, by omega, by omega, by omega, h2⟩⟩

/-- A ReLU is added to the concatenation of two inputs that have quantisers. -/
def reluCatGraph (a b c : ℕ) (rest : List (Name × ℕ)) (objs : ℕ → Obj) (next : ℕ) : Graph where
  adds := [3, 4]
  op := fun n => ([.call (.orig "relu"), .call (.orig "x_quant"), .call (.orig "y_quant"), .cat, .add] : List Op).getD n .raw
  args := fun n => ([[5], [6], [7], [1, 2], [0, 3]] : List (List ℕ)).getD n []
  mods := [(.orig "relu", a), (.orig "x_quant", b), (.orig "y_quant", c)] ++ rest
  objs := objs
  next := next

theorem reluCat_round (a b s n : ℕ) (rest : List (Name × ℕ)) (objs : ℕ → Obj) (hab : a ≠ b) (ha : a < n) (hb : b < n)
    (hoa : objs a = .act ⟨a, s, s⟩ false) (hob : objs b = .identity ⟨b, b, b⟩) :
    (reluCatGraph a b b rest objs n).adds.find? (fun v => !aligned (reluCatGraph a b b rest objs n) 3 v) = some 4 ∧
      ∃ rest' objs', alignNode (reluCatGraph a b b rest objs n) 3 4 = reluCatGraph (n + 1) n n rest' objs' (n + 2) ∧
        objs' (n + 1) = .act ⟨n + 1, n, n⟩ false ∧ objs' n = .identity ⟨n, n, n⟩ := by
  have hba : ¬ b = a := Ne.symm hab
  constructor
  · simp [reluCatGraph, aligned, check, checkArg, Graph.isCat, Graph.obj, Graph.objId, Obj.actQuant, Brevitas.Quantize.tensorQuantInList, hab, hoa,
      hob]
  · refine ⟨setName (.quant 4) n rest, Function.update (Function.update objs n (.identity ⟨n, n, n⟩)) (n + 1) (.act ⟨n + 1, n, n⟩ false), ?_, ?_, ?_⟩
    · simp [alignNode, newQuant, reluCatGraph, rewriters, rewriteArg, Graph.isCat, Graph.obj, Graph.objId, applyRewriter, replaceFirst, setName,
        Function.update_of_ne ha.ne, Function.update_of_ne hb.ne, hoa, hob, hb.ne', (show n + 1 ≠ b by omega)]
    · simp
    · rw [Function.update_of_ne (by omega), Function.update_self]

/-- The modules before the first round. -/
def reluCatObjs (n : ℕ) : Obj := if n = 1 then .act ⟨1, 1, 1⟩ false else .identity ⟨n, n, n⟩

/-- A network that adds the concatenation of two tensors to the output of a ReLU, as in `relu(z) + cat([x, y])`, cannot be quantised, because the
check of an addition expects the inputs of the concatenation to have the very quantiser of the ReLU. -/
theorem C93_relu_plus_cat_fails : residual 3 (reluCatGraph 1 2 3 [] reluCatObjs 8) = none := by
  have h1 : ((reluCatGraph 1 2 3 [] reluCatObjs 8).adds.find? fun v => !aligned (reluCatGraph 1 2 3 [] reluCatObjs 8) 3 v) = some 3 := by
    decide +kernel
  have h2 : alignNode (reluCatGraph 1 2 3 [] reluCatObjs 8) 3 3 = reluCatGraph 1 8 8 [(.quant 3, 8)] reluCatObjs 9 := by
    have : Function.update reluCatObjs 8 (.identity ⟨8, 8, 8⟩) = reluCatObjs := by
      funext i
      by_cases h : i = 8
      · subst h; rw [Function.update_self]; rfl
      · rw [Function.update_of_ne h]
    simp only [alignNode, newQuant, reluCatGraph, this]
    simp [rewriters, rewriteArg, Graph.isCat, Graph.obj, Graph.objId, applyRewriter, replaceFirst, setName, reluCatObjs]
  unfold residual
  rw [residualLoop, h1]
  dsimp only
  rw [h2]
  refine loop_never (Inv := fun g => ∃ a b s n rest objs, a ≠ b ∧ a < n ∧ b < n ∧ objs a = .act ⟨a, s, s⟩ false ∧ objs b = .identity ⟨b, b, b⟩ ∧
    g = reluCatGraph a b b rest objs n) ?_ 9998 _ ⟨1, 8, 1, 9, _, _, by decide, by decide, by decide, rfl, rfl, rfl⟩
  rintro g ⟨a, b, s, n, rest, objs, hab, ha, hb, hoa, hob, rfl⟩
  obtain ⟨h1, rest', objs', h2, h3, h4⟩ := reluCat_round a b s n rest objs hab ha hb hoa hob
  exact ⟨4, h1, n + 1, n, n, n + 2, rest', objs', by omega, by omega, by omega, h3, h4, h2⟩

/-- In the other order, `cat([x, y]) + relu(z)`, it can. -/
example :
    let g : Graph := { reluCatGraph 1 2 3 [] reluCatObjs 8 with
      args := fun n => ([[5], [6], [7], [1, 2], [3, 0]] : List (List ℕ)).getD n [] }
    aligned (alignNode (alignNode g 3 3) 3 4) 3 3 = true ∧ aligned (alignNode (alignNode g 3 3) 3 4) 3 4 = true := by
  decide +kernel

end Brevitas.Residual
