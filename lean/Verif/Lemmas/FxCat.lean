import Verif.Model.FxCat
import Verif.Lemmas.Fx
import Verif.Lemmas.Tensor

/-! # Lemmas on the rewriting of concatenations -/

namespace Brevitas.Fx

variable {K : Type*} [Zero K] {V : Type*}

/-- References made by concatenations. -/
def catRefs (g : Graph) : List ℕ :=
  g.flatMap fun n => match n.op with
    | .cat _ => n.refs
    | _ => []

theorem catRefs_append (g1 g2 : Graph) : catRefs (g1 ++ g2) = catRefs g1 ++ catRefs g2 := List.flatMap_append

theorem catRefs_cons_cat {n : Node} {d : ℤ} (h : n.op = .cat d) (g : Graph) : catRefs (n :: g) = n.refs ++ catRefs g := by
  unfold catRefs
  rw [List.flatMap_cons, h]

/-- The arguments of a concatenation that succeeds are references. -/
theorem refs_of_tensorList {l : List (Arg ℕ)} {f : ℕ → Option (NdTensor K)} {ts : List (NdTensor K)}
    (h : tensorList (Arg.mapList f l) = some ts) : ∃ rs : List ℕ, l = rs.map .ref := by
  induction l generalizing ts with
  | nil => exact ⟨[], rfl⟩
  | cons a l ih =>
    rcases a with b | k | xs
    · simp only [Arg.mapList, Arg.map] at h
      cases hb : f b with
      | none => rw [hb] at h; simp [tensorList] at h
      | some t =>
        rw [hb] at h
        simp only [tensorList, Option.map_eq_some_iff] at h
        obtain ⟨ts', h1, _⟩ := h
        obtain ⟨rs, hrs⟩ := ih h1
        exact ⟨b :: rs, by rw [hrs]; rfl⟩
    · simp [Arg.mapList, Arg.map, tensorList] at h
    · simp [Arg.mapList, Arg.map, tensorList] at h

theorem refsList_map_ref (rs : List ℕ) : Arg.refsList (rs.map Arg.ref) = rs := by
  induction rs with
  | nil => rfl
  | cons a rs ih => simp [Arg.refsList, Arg.refs, ih]

theorem mapList_append {α β : Type*} (f : α → β) (as bs : List (Arg α)) :
    Arg.mapList f (as ++ bs) = Arg.mapList f as ++ Arg.mapList f bs := by
  induction as with
  | nil => rfl
  | cons a as ih => simp [Arg.mapList, ih]

theorem refsList_append {α : Type*} (as bs : List (Arg α)) : Arg.refsList (as ++ bs) = Arg.refsList as ++ Arg.refsList bs := by
  induction as with
  | nil => rfl
  | cons a as ih => simp [Arg.refsList, ih]

theorem filter_isRef (E : ℕ) (A : List ℕ) (hA : E ∉ A) :
    (A.map Arg.ref).filter (fun t => !isRef E t) = A.map Arg.ref := by
  rw [List.filter_eq_self]
  intro a ha
  obtain ⟨b, hb, rfl⟩ := List.mem_map.1 ha
  have : b ≠ E := fun hc => hA (hc ▸ hb)
  simp [isRef, this]

/-- When the extracted concatenation is an operand once, it is replaced by its operands in place. -/
theorem mergeTensors_once (E : ℕ) (A B : List ℕ) (hA : E ∉ A) (hB : E ∉ B) (l1 : List (Arg ℕ)) :
    mergeTensors E l1 ((A ++ E :: B).map .ref) = A.map .ref ++ l1 ++ B.map .ref := by
  unfold mergeTensors
  have hidx : ((A ++ E :: B).map Arg.ref).findIdx (isRef E) = A.length := by
    rw [List.map_append, List.findIdx_append]
    have h1 : List.findIdx (isRef E) (A.map Arg.ref) = (A.map Arg.ref).length := by
      rw [List.findIdx_eq_length]
      intro a ha
      obtain ⟨b, hb, rfl⟩ := List.mem_map.1 ha
      have : b ≠ E := fun hc => hA (hc ▸ hb)
      simp [isRef, this]
    rw [h1]
    simp [List.findIdx_cons, isRef]
  have hrest : ((A ++ E :: B).map Arg.ref).filter (fun t => !isRef E t) = A.map .ref ++ B.map .ref := by
    rw [List.map_append, List.filter_append, filter_isRef E A hA, List.map_cons, List.filter_cons, if_neg (by simp [isRef]),
      filter_isRef E B hB]
  simp only [hidx, hrest]
  rw [List.take_left' (by simp), List.drop_left' (by simp)]

theorem WF_drop {a : ℕ} {s s' : List ℕ} {g : Graph} (h : WF s g) (hr : ∀ n ∈ g, a ∉ n.refs)
    (h1 : ∀ x ∈ s, x = a ∨ x ∈ s') (h2 : ∀ x ∈ s', x ∈ s) : WF s' g := by
  induction g generalizing s s' with
  | nil => trivial
  | cons n g ih =>
    obtain ⟨w1, w2, w3⟩ := h
    refine ⟨fun hc => w1 (h2 _ hc), ?_, ?_⟩
    · intro x hx
      exact (h1 x (w2 x hx)).resolve_left fun hc => hr n (by simp) (hc ▸ hx)
    · apply ih w3 (fun m hm => hr m (by simp [hm]))
      · intro x hx
        rcases List.mem_cons.1 hx with rfl | hx
        · exact Or.inr (by simp)
        · exact (h1 x hx).imp id fun h => by simp [h]
      · intro x hx
        rcases List.mem_cons.1 hx with rfl | hx
        · simp
        · simp [h2 x hx]

/-- The values read by a node do not change after they are computed. -/
theorem exec_stable (S : Sem V) (seen : List ℕ) (g : Graph) (h : WF seen g) (env : ℕ → V) (a : ℕ) (ha : a ∈ seen) :
    exec S g env a = env a := exec_of_notMem S g env a fun hc => (WF_names h).2 a hc ha

/-- What the collapsing of concatenations needs of a graph: well formed, no exception in a concatenation, and no
concatenation is an operand of concatenations more than once. -/
structure CatGood (S : Sem (Option (NdTensor K))) (env : ℕ → Option (NdTensor K)) (g : Graph) : Prop where
  wf : WF [] g
  ok : ∀ n ∈ g, ∀ d, n.op = .cat d → exec S g env n.name ≠ none
  once : ∀ n ∈ g, ∀ d, n.op = .cat d → (catRefs g).count n.name ≤ 1

theorem catTensors_some {n : Node} {d : ℤ} {l : List (Arg ℕ)} (h : catTensors n = some (d, l)) :
    n.op = .cat d ∧ n.args = [.seq l] := by
  unfold catTensors at h
  split at h
  · rename_i d' l' h1 h2
    simp only [Option.some.injEq, Prod.mk.injEq] at h
    obtain ⟨rfl, rfl⟩ := h
    exact ⟨h1, h2⟩
  · simp at h

/-- The value of a node of a well-formed graph. -/
theorem exec_node (S : Sem V) {pre post : Graph} {n : Node} (h : WF [] (pre ++ n :: post)) (env : ℕ → V) :
    exec S (pre ++ n :: post) env n.name = S.apply n.op (Arg.mapList (exec S pre env) n.args) := by
  obtain ⟨_, _, h3, _, _⟩ := WF_split h
  rw [exec_append, exec_cons, exec_of_notMem S post _ _ h3, Function.update_self]

theorem collapseInto_spec (S : Sem (Option (NdTensor K))) (hS : S.cat = catOp) (env : ℕ → Option (NdTensor K)) (g : Graph)
    (hg : CatGood S env g) (M E : Node) (hM : M ∈ g) (hE : E ∈ g) (d : ℤ) (l1 l2 : List (Arg ℕ))
    (hMc : catTensors M = some (d, l2)) (hEc : catTensors E = some (d, l1)) (hread : E.name ∈ M.refs)
    (husers : numUsers g E.name = 1) :
    CatGood S env (collapseInto g M.name E.name (mergeTensors E.name l1 l2)) ∧
    (∀ n ∈ g, (∀ d, n.op ≠ .cat d) → n ∈ collapseInto g M.name E.name (mergeTensors E.name l1 l2)) ∧
    (∀ n ∈ names (collapseInto g M.name E.name (mergeTensors E.name l1 l2)),
      exec S (collapseInto g M.name E.name (mergeTensors E.name l1 l2)) env n = exec S g env n) := by
  obtain ⟨hMop, hMargs⟩ := catTensors_some hMc
  obtain ⟨hEop, hEargs⟩ := catTensors_some hEc
  -- positions
  obtain ⟨pre', post, hsplit⟩ := List.append_of_mem hM
  have hwf1 : WF [] (pre' ++ M :: post) := hsplit ▸ hg.wf
  have hEpre : E ∈ pre' := by
    obtain ⟨_, w2⟩ := (WF_append _ _ _).1 hwf1
    have h2 := w2.2.1 E.name hread
    simp only [List.append_nil, List.mem_reverse] at h2
    have hE' := hE
    rw [hsplit] at hE'
    rcases List.mem_append.1 hE' with h | h
    · exact h
    · exfalso
      have h3 : E.name ∈ names (M :: post) := List.mem_map_of_mem h
      exact (WF_names w2).2 _ h3 (by simpa using h2)
  obtain ⟨pre, mid, hpre⟩ := List.append_of_mem hEpre
  have hgeq : g = pre ++ E :: (mid ++ M :: post) := by rw [hsplit, hpre]; simp
  have hwf : WF [] (pre ++ E :: (mid ++ M :: post)) := hgeq ▸ hg.wf
  obtain ⟨o1, o2⟩ := numUsers_le_one (by omega : ¬ 1 < numUsers g E.name) hsplit hread
  have omid : ∀ n ∈ mid, E.name ∉ n.refs := fun n hn => o1 n (by rw [hpre]; simp [hn])
  obtain ⟨_, l2', l3', _, l5⟩ := WF_split hwf
  obtain ⟨_, b2, b3, b4, b5⟩ := WF_split hwf1
  have hne : E.name ≠ M.name := fun hc => b5 (hc ▸ hread)
  -- executions
  set e := exec S pre env with he
  set vE := S.apply E.op (Arg.mapList e E.args) with hvE
  set eE := Function.update e E.name vE with heE
  have hEval : exec S g env E.name = vE := by
    rw [hgeq, exec_node S hwf]
  have hMval : exec S g env M.name = S.apply M.op (Arg.mapList (exec S mid eE) M.args) := by
    rw [hsplit, exec_node S hwf1, hpre, exec_append, exec_cons]
  have hEok := hg.ok E hE d hEop
  have hMok := hg.ok M hM d hMop
  rw [hEval, hvE, hEop, Sem.apply, hS, hEargs, Arg.mapList, Arg.map, Arg.mapList, catOp] at hEok
  rw [hMval, hMop, Sem.apply, hS, hMargs, Arg.mapList, Arg.map, Arg.mapList, catOp] at hMok
  obtain ⟨tE, hvEs⟩ := Option.ne_none_iff_exists'.1 hEok
  obtain ⟨tM, hvMs⟩ := Option.ne_none_iff_exists'.1 hMok
  obtain ⟨ts1, ht1, hc1⟩ := Option.bind_eq_some_iff.1 hvEs
  obtain ⟨ts2, ht2, hc2⟩ := Option.bind_eq_some_iff.1 hvMs
  obtain ⟨rs1, rfl⟩ := refs_of_tensorList ht1
  obtain ⟨rs2, rfl⟩ := refs_of_tensorList ht2
  have hMrefs : M.refs = rs2 := by simp [Node.refs, hMargs, Arg.refsList, Arg.refs, refsList_map_ref]
  have hErefs : E.refs = rs1 := by simp [Node.refs, hEargs, Arg.refsList, Arg.refs, refsList_map_ref]
  have hcr : catRefs g = catRefs pre ++ (rs1 ++ (catRefs mid ++ (rs2 ++ catRefs post))) := by
    rw [hgeq, catRefs_append, catRefs_cons_cat hEop, catRefs_append, catRefs_cons_cat hMop, hErefs, hMrefs]
  -- the operand occurs once
  have hcount := hg.once E hE d hEop
  rw [hcr] at hcount
  simp only [List.count_append] at hcount
  have hErs2 : E.name ∈ rs2 := hMrefs ▸ hread
  obtain ⟨A, B, hAB⟩ := List.append_of_mem hErs2
  rw [hAB] at hcount
  simp only [List.count_append, List.count_cons_self] at hcount
  have hA : E.name ∉ A := by rw [← List.count_eq_zero]; omega
  have hB : E.name ∉ B := by rw [← List.count_eq_zero]; omega
  have hmt : mergeTensors E.name (rs1.map Arg.ref) (rs2.map Arg.ref) = (A ++ rs1 ++ B).map Arg.ref := by
    rw [hAB, mergeTensors_once E.name A B hA hB]; simp
  obtain ⟨L, hL⟩ : ∃ L, L = A ++ rs1 ++ B := ⟨_, rfl⟩
  rw [hmt, ← hL]
  obtain ⟨M', hM'⟩ : ∃ M' : Node, M' = { M with args := [.seq (L.map Arg.ref)] } := ⟨_, rfl⟩
  have hM'name : M'.name = M.name := by rw [hM']
  have hM'op : M'.op = .cat d := by rw [hM']; exact hMop
  have hM'args : M'.args = [.seq (L.map Arg.ref)] := by rw [hM']
  have hM'refs : M'.refs = L := by simp [Node.refs, hM'args, Arg.refsList, Arg.refs, refsList_map_ref]
  -- the new graph
  have hnew : collapseInto g M.name E.name (L.map Arg.ref) = pre ++ (mid ++ M' :: post) := by
    unfold collapseInto
    have hid : ∀ l : Graph, M.name ∉ names l → l.map (fun n => if n.name = M.name then
        { n with args := [.seq (L.map Arg.ref)] } else n) = l := by
      intro l hl
      conv_rhs => rw [← List.map_id l]
      apply List.map_congr_left
      intro n hn
      rw [if_neg (fun hc => hl (by rw [← hc]; exact List.mem_map_of_mem hn))]
      rfl
    have hfil : ∀ l : Graph, E.name ∉ names l → l.filter (fun n => n.name != E.name) = l := by
      intro l hl
      rw [List.filter_eq_self]
      intro n hn
      simp only [bne_iff_ne, ne_eq]
      exact fun hc => hl (by rw [← hc]; exact List.mem_map_of_mem hn)
    have hb2 : M.name ∉ names pre ∧ M.name ∉ names mid := by
      rw [hpre] at b2
      simp only [names, List.map_append, List.map_cons, List.mem_append, List.mem_cons, not_or] at b2
      exact ⟨b2.1, b2.2.2⟩
    have hl3 : E.name ∉ names mid ∧ E.name ∉ names post := by
      simp only [names, List.map_append, List.map_cons, List.mem_append, List.mem_cons, not_or] at l3'
      exact ⟨l3'.1, l3'.2.2⟩
    rw [hgeq, List.map_append, List.map_cons, List.map_append, List.map_cons, hid pre hb2.1, hid mid hb2.2, hid post b3,
      if_neg hne, if_pos rfl, ← hM', List.filter_append, List.filter_cons, if_neg (by simp), List.filter_append, List.filter_cons,
      if_pos (by rw [hM'name, bne_iff_ne]; exact fun h => hne h.symm), hfil pre l2', hfil mid hl3.1, hfil post hl3.2]
  rw [hnew]
  -- values
  have hmidagree : ∀ n, n ≠ E.name → exec S mid eE n = exec S mid e n :=
    exec_agree S mid E.name eE e omid fun n hn => by rw [heE, Function.update_of_ne hn]
  have hseen := (WF_append _ _ _).1 hwf
  obtain ⟨_, wE1, wE2, wrest⟩ := hseen
  obtain ⟨wmid, wM1, wM2, wpost⟩ := (WF_append _ _ _).1 wrest
  have hrs1mid : ∀ x ∈ rs1, exec S mid e x = e x := by
    intro x hx
    have hx' : x ∈ (names pre).reverse ++ [] := wE2 x (hErefs ▸ hx)
    exact exec_stable S _ mid wmid e x (by simp only [List.mem_cons]; exact Or.inr hx')
  have hvals : ∀ (l : List ℕ) (f h : ℕ → Option (NdTensor K)), (∀ x ∈ l, f x = h x) →
      Arg.mapList f (l.map Arg.ref) = Arg.mapList h (l.map Arg.ref) := by
    intro l f h hfh
    apply Arg.mapList_congr
    rw [refsList_map_ref]
    exact hfh
  have hMnew : S.apply M'.op (Arg.mapList (exec S mid e) M'.args)
      = S.apply M.op (Arg.mapList (exec S mid eE) M.args) := by
    rw [hM'op, hMop, hM'args, hMargs]
    simp only [Sem.apply, hS, Arg.mapList, Arg.map, catOp]
    rw [hvMs, hL]
    rw [hAB, List.map_append, List.map_cons, mapList_append, Arg.mapList, Arg.map] at ht2
    obtain ⟨tA, tB', hA1, hB1, rfl⟩ := tensorList_append.1 ht2
    have hEv : exec S mid eE E.name = some tE := by
      rw [exec_of_notMem S mid eE E.name (by
        simp only [names, List.map_append, List.map_cons, List.mem_append, List.mem_cons, not_or] at l3'
        exact l3'.1), heE, Function.update_self, hvE, hEop, Sem.apply, hS, hEargs, Arg.mapList, Arg.map, Arg.mapList, catOp, hvEs]
    rw [hEv, tensorList, Option.map_eq_some_iff] at hB1
    obtain ⟨tB, hB2, rfl⟩ := hB1
    rw [List.map_append, List.map_append, mapList_append, mapList_append]
    rw [hvals A (exec S mid e) (exec S mid eE) (fun x hx => (hmidagree x fun hc => hA (hc ▸ hx)).symm),
      hvals B (exec S mid e) (exec S mid eE) (fun x hx => (hmidagree x fun hc => hB (hc ▸ hx)).symm),
      hvals rs1 (exec S mid e) e hrs1mid]
    have : tensorList (Arg.mapList (exec S mid eE) (A.map Arg.ref) ++ Arg.mapList e (rs1.map Arg.ref)
        ++ Arg.mapList (exec S mid eE) (B.map Arg.ref)) = some (tA ++ ts1 ++ tB) :=
      tensorList_append.2 ⟨tA ++ ts1, tB, tensorList_append.2 ⟨tA, ts1, hA1, ht1, rfl⟩, hB2, rfl⟩
    rw [this, Option.bind_some]
    exact NdTensor.cat_flatten hc1 hc2
  have hexec : ∀ n, n ≠ E.name → exec S (pre ++ (mid ++ M' :: post)) env n = exec S g env n := by
    intro n hn
    rw [hgeq, exec_append, exec_append, exec_cons, exec_append, exec_cons, exec_append, exec_cons, hMnew]
    symm
    apply exec_agree S post E.name _ _ o2 _ n hn
    intro k hk
    rw [hM'name]
    by_cases hkM : k = M.name
    · subst hkM
      rw [Function.update_self, Function.update_self]
    · rw [Function.update_of_ne hkM, Function.update_of_ne hkM]
      exact hmidagree k hk
  have hEnot : E.name ∉ names (pre ++ (mid ++ M' :: post)) := by
    simp only [names, List.map_append, List.map_cons, List.mem_append, List.mem_cons, not_or] at l3' ⊢
    rw [hM'name]
    exact ⟨l2', l3'.1, hne, l3'.2.2⟩
  have hnamesEq : ∀ n ∈ names (pre ++ (mid ++ M' :: post)), exec S (pre ++ (mid ++ M' :: post)) env n = exec S g env n :=
    fun n hn => hexec n fun hc => hEnot (hc ▸ hn)
  refine ⟨⟨?_, ?_, ?_⟩, ?_, hnamesEq⟩
  · -- well-formedness
    refine (WF_append _ _ _).2 ⟨((WF_append _ _ _).1 hwf).1, (WF_append _ _ _).2 ⟨?_, ?_, ?_, ?_⟩⟩
    · exact WF_drop (a := E.name) wmid omid (fun x hx => List.mem_cons.1 hx) (fun x hx => List.mem_cons_of_mem _ hx)
    · intro hc
      apply wM1
      rw [hM'name] at hc
      simp only [List.mem_append, List.mem_cons] at hc ⊢
      tauto
    · intro x hx
      have hx' : x ∈ A ++ rs1 ++ B := by rw [← hL, ← hM'refs]; exact hx
      simp only [List.mem_append] at hx'
      have hAB' : x ∈ A ∨ x ∈ B → x ∈ (names mid).reverse ++ ((names pre).reverse ++ []) := by
        intro h
        have hxr : x ∈ M.refs := by rw [hMrefs, hAB]; simp only [List.mem_append, List.mem_cons]; tauto
        have := wM2 x hxr
        simp only [List.mem_append, List.mem_cons] at this ⊢
        rcases this with h1 | h1 | h1
        · exact Or.inl h1
        · exfalso; rcases h with h | h
          · exact hA (h1 ▸ h)
          · exact hB (h1 ▸ h)
        · exact Or.inr h1
      rcases hx' with (h | h) | h
      · exact hAB' (Or.inl h)
      · have := wE2 x (hErefs ▸ h)
        simp only [List.mem_append] at this ⊢
        exact Or.inr this
      · exact hAB' (Or.inr h)
    · rw [hM'name]
      apply WF_drop (a := E.name) wpost o2
      · intro x hx
        simp only [List.mem_append, List.mem_cons] at hx ⊢
        rcases hx with h | h | h | h
        · exact Or.inr (Or.inl h)
        · exact Or.inr (Or.inr (Or.inl h))
        · exact Or.inl h
        · exact Or.inr (Or.inr (Or.inr h))
      · intro x hx
        simp only [List.mem_append, List.mem_cons] at hx ⊢
        rcases hx with h | h | h
        · exact Or.inl h
        · exact Or.inr (Or.inl h)
        · exact Or.inr (Or.inr (Or.inr h))
  · intro n hn d' hd'
    rw [hnamesEq n.name (List.mem_map_of_mem hn)]
    have hcase : n ∈ g ∨ n = M' := by
      rw [hgeq]
      simp only [List.mem_append, List.mem_cons] at hn ⊢
      tauto
    rcases hcase with h | h
    · exact hg.ok n h d' hd'
    · rw [h, hM'name]
      exact hg.ok M hM d hMop
  · intro n hn d' hd'
    have hnE : n.name ≠ E.name := fun hc => hEnot (hc ▸ List.mem_map_of_mem hn)
    have hcase : ∃ m ∈ g, m.name = n.name ∧ m.op = n.op := by
      have hcase : n ∈ g ∨ n = M' := by
        rw [hgeq]
        simp only [List.mem_append, List.mem_cons] at hn ⊢
        tauto
      rcases hcase with h | h
      · exact ⟨n, h, rfl, rfl⟩
      · exact ⟨M, hM, by rw [h, hM'name], by rw [h, hM'op, hMop]⟩
    obtain ⟨m, hm, hmn, hmo⟩ := hcase
    have hold := hg.once m hm d' (hmo.trans hd')
    rw [hcr, hAB, hmn] at hold
    rw [catRefs_append, catRefs_append, catRefs_cons_cat hM'op, hM'refs, hL]
    simp only [List.count_append, List.count_cons_of_ne (Ne.symm hnE)] at hold ⊢
    omega
  · intro n hn hnc
    rw [hgeq] at hn
    simp only [List.mem_append, List.mem_cons] at hn ⊢
    rcases hn with h | rfl | h | rfl | h
    · exact Or.inl h
    · exact absurd hEop (hnc d)
    · exact Or.inr (Or.inl h)
    · exact absurd hMop (hnc d)
    · exact Or.inr (Or.inr (Or.inr h))

theorem collapseStep_some {g g' : Graph} (h : collapseStep g = some g') :
    ∃ M E d l1 l2, M ∈ g ∧ E ∈ g ∧ catTensors M = some (d, l2) ∧ catTensors E = some (d, l1) ∧ E.name ∈ M.refs ∧
      numUsers g E.name = 1 ∧ g' = collapseInto g M.name E.name (mergeTensors E.name l1 l2) := by
  unfold collapseStep at h
  obtain ⟨M, hM, h⟩ := List.exists_of_findSome?_eq_some h
  unfold collapseNode at h
  cases hc : catTensors M with
  | none => rw [hc] at h; simp at h
  | some dl =>
    obtain ⟨d, l2⟩ := dl
    rw [hc] at h
    simp only at h
    obtain ⟨p, hp, h⟩ := List.exists_of_findSome?_eq_some h
    unfold collapseOperand at h
    cases hf : findNode g p with
    | none => rw [hf] at h; simp at h
    | some E =>
      rw [hf] at h
      simp only at h
      obtain ⟨hE, hEn⟩ := findNode_some hf
      cases hce : catTensors E with
      | none => rw [hce] at h; simp at h
      | some dl' =>
        obtain ⟨d', l1⟩ := dl'
        rw [hce] at h
        simp only at h
        split_ifs at h with hcond
        simp only [Option.some.injEq] at h
        obtain ⟨rfl, hu⟩ := hcond
        subst hEn
        exact ⟨M, E, d, l1, l2, hM, hE, hc, hce, List.mem_eraseDups.1 hp, hu, h.symm⟩

theorem collapseStep_length {g g' : Graph} (h : collapseStep g = some g') : g'.length < g.length := by
  obtain ⟨M, E, d, l1, l2, hM, hE, _, _, _, _, rfl⟩ := collapseStep_some h
  unfold collapseInto
  calc _ < (g.map fun n => if n.name = M.name then { n with args := [Arg.seq (mergeTensors E.name l1 l2)] } else n).length := by
        apply List.length_filter_lt_length_iff_exists.2
        refine ⟨_, List.mem_map_of_mem hE, ?_⟩
        split_ifs <;> simp
    _ = g.length := by simp

theorem collapseN_spec (S : Sem (Option (NdTensor K))) (hS : S.cat = catOp) (env : ℕ → Option (NdTensor K)) (fuel : ℕ) (g : Graph)
    (hg : CatGood S env g) :
    (∀ n ∈ g, (∀ d, n.op ≠ .cat d) → n ∈ collapseN fuel g) ∧
    (∀ n ∈ names (collapseN fuel g), exec S (collapseN fuel g) env n = exec S g env n) := by
  induction fuel generalizing g with
  | zero => exact ⟨fun n hn _ => hn, fun _ _ => rfl⟩
  | succ fuel ih =>
    unfold collapseN
    cases hs : collapseStep g with
    | none => exact ⟨fun n hn _ => hn, fun _ _ => rfl⟩
    | some g' =>
      simp only
      obtain ⟨M, E, d, l1, l2, hM, hE, hc1, hc2, hr, hu, rfl⟩ := collapseStep_some hs
      obtain ⟨k1, k2, k3⟩ := collapseInto_spec S hS env g hg M E hM hE d l1 l2 hc1 hc2 hr hu
      obtain ⟨i1, i2⟩ := ih _ k1
      refine ⟨fun n hn hnc => i1 n (k2 n hn hnc) hnc, ?_⟩
      intro n hn
      rw [i2 n hn]
      by_cases hmem : n ∈ names (collapseInto g M.name E.name (mergeTensors E.name l1 l2))
      · exact k3 n hmem
      · -- names only disappear
        exfalso
        exact hmem (names_collapseN _ _ n hn)
where
  names_collapseN : ∀ (fuel : ℕ) (g : Graph) (n : ℕ), n ∈ names (collapseN fuel g) → n ∈ names g := by
    intro fuel
    induction fuel with
    | zero => exact fun g n h => h
    | succ fuel ih =>
      intro g n h
      unfold collapseN at h
      cases hs : collapseStep g with
      | none => rw [hs] at h; exact h
      | some g' =>
        rw [hs] at h
        have := ih g' n h
        obtain ⟨M, E, d, l1, l2, _, _, _, _, _, _, rfl⟩ := collapseStep_some hs
        unfold collapseInto names at this
        obtain ⟨m, hm, rfl⟩ := List.mem_map.1 this
        obtain ⟨k, hk, rfl⟩ := List.mem_map.1 (List.mem_of_mem_filter hm)
        have hkk : k.name ∈ names g := List.mem_map_of_mem hk
        split_ifs <;> exact hkk

theorem collapseN_converged (fuel : ℕ) (g : Graph) (h : g.length ≤ fuel) : collapseStep (collapseN fuel g) = none := by
  induction fuel generalizing g with
  | zero =>
    have : g = [] := List.length_eq_zero_iff.1 (by omega)
    subst this
    rfl
  | succ fuel ih =>
    unfold collapseN
    cases hs : collapseStep g with
    | none => exact hs
    | some g' => exact ih g' (by have := collapseStep_length hs; omega)

end Brevitas.Fx
