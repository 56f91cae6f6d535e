import Verif.Model.Fx

/-! # Lemmas on traced graphs -/

namespace Brevitas.Fx

variable {α β γ V : Type*}

mutual
theorem Arg.map_map (f : α → β) (g : β → γ) : ∀ a : Arg α, (a.map f).map g = a.map (fun x => g (f x))
  | .ref _ => rfl
  | .const _ => rfl
  | .seq as => by simp only [Arg.map, Arg.mapList_mapList f g as]

theorem Arg.mapList_mapList (f : α → β) (g : β → γ) :
    ∀ as : List (Arg α), Arg.mapList g (Arg.mapList f as) = Arg.mapList (fun x => g (f x)) as
  | [] => rfl
  | a :: as => by simp only [Arg.mapList, Arg.map_map f g a, Arg.mapList_mapList f g as]
end

mutual
theorem Arg.map_congr {f g : α → β} : ∀ a : Arg α, (∀ x ∈ a.refs, f x = g x) → a.map f = a.map g
  | .ref a, h => by simp only [Arg.map, h a (by simp [Arg.refs])]
  | .const _, _ => rfl
  | .seq as, h => by simp only [Arg.map, Arg.mapList_congr as h]

theorem Arg.mapList_congr {f g : α → β} :
    ∀ as : List (Arg α), (∀ x ∈ Arg.refsList as, f x = g x) → Arg.mapList f as = Arg.mapList g as
  | [], _ => rfl
  | a :: as, h => by
    simp only [Arg.refsList, List.mem_append] at h
    simp only [Arg.mapList, Arg.map_congr a (fun x hx => h x (Or.inl hx)),
      Arg.mapList_congr as (fun x hx => h x (Or.inr hx))]
end

mutual
theorem Arg.map_id : ∀ a : Arg α, a.map (fun x => x) = a
  | .ref _ => rfl
  | .const _ => rfl
  | .seq as => by simp only [Arg.map, Arg.mapList_id as]

theorem Arg.mapList_id : ∀ as : List (Arg α), Arg.mapList (fun x => x) as = as
  | [] => rfl
  | a :: as => by simp only [Arg.mapList, Arg.map_id a, Arg.mapList_id as]
end

mutual
theorem Arg.refs_map (f : α → β) : ∀ a : Arg α, (a.map f).refs = a.refs.map f
  | .ref _ => rfl
  | .const _ => rfl
  | .seq as => by simp only [Arg.map, Arg.refs, Arg.refsList_map f as]

theorem Arg.refsList_map (f : α → β) : ∀ as : List (Arg α), Arg.refsList (Arg.mapList f as) = (Arg.refsList as).map f
  | [] => rfl
  | a :: as => by simp only [Arg.mapList, Arg.refsList, Arg.refs_map f a, Arg.refsList_map f as, List.map_append]
end

/-- Replacing references that do not occur changes nothing. -/
theorem Arg.mapList_self {f : α → α} (as : List (Arg α)) (h : ∀ x ∈ Arg.refsList as, f x = x) :
    Arg.mapList f as = as := by
  rw [Arg.mapList_congr as (g := fun x => x) h, Arg.mapList_id]

theorem skeleton_mapList (f : α → β) (as : List (Arg α)) : Arg.skeleton (Arg.mapList f as) = Arg.skeleton as := by
  simp only [Arg.skeleton, Arg.mapList_mapList]

theorem execVia_append (view : ℕ → ℕ → V → V) (S : Sem V) (g1 g2 : Graph) (env : ℕ → V) :
    execVia view S (g1 ++ g2) env = execVia view S g2 (execVia view S g1 env) := by
  induction g1 generalizing env with
  | nil => rfl
  | cons n g1 ih => simp only [List.cons_append, execVia, ih]

theorem exec_append (S : Sem V) (g1 g2 : Graph) (env : ℕ → V) : exec S (g1 ++ g2) env = exec S g2 (exec S g1 env) :=
  execVia_append _ S g1 g2 env

theorem exec_cons (S : Sem V) (n : Node) (g : Graph) (env : ℕ → V) :
    exec S (n :: g) env = exec S g (Function.update env n.name (S.apply n.op (Arg.mapList env n.args))) := rfl

/-- A run does not touch names that the graph does not define. -/
theorem execVia_of_notMem (view : ℕ → ℕ → V → V) (S : Sem V) (g : Graph) (env : ℕ → V) (a : ℕ) (h : a ∉ names g) :
    execVia view S g env a = env a := by
  induction g generalizing env with
  | nil => rfl
  | cons n g ih =>
    simp only [names, List.map_cons, List.mem_cons, not_or] at h
    rw [execVia, ih _ h.2, Function.update_of_ne h.1]

theorem exec_of_notMem (S : Sem V) (g : Graph) (env : ℕ → V) (a : ℕ) (h : a ∉ names g) : exec S g env a = env a :=
  execVia_of_notMem _ S g env a h

theorem WF_append (seen : List ℕ) (g1 g2 : Graph) :
    WF seen (g1 ++ g2) ↔ WF seen g1 ∧ WF ((names g1).reverse ++ seen) g2 := by
  induction g1 generalizing seen with
  | nil => simp [WF, names]
  | cons n g1 ih => simp [WF, names, ih, and_assoc]

/-- Only membership of the names seen so far matters. -/
theorem WF_congr {s1 s2 : List ℕ} (h : ∀ a, a ∈ s1 ↔ a ∈ s2) (g : Graph) : WF s1 g ↔ WF s2 g := by
  induction g generalizing s1 s2 with
  | nil => simp [WF]
  | cons n g ih =>
    simp only [WF, h]
    rw [ih (s1 := n.name :: s1) (s2 := n.name :: s2) (by intro a; simp [h])]

/-- In a well-formed graph names are not repeated and not among those seen. -/
theorem WF_names {seen : List ℕ} {g : Graph} (h : WF seen g) : (names g).Nodup ∧ ∀ a ∈ names g, a ∉ seen := by
  induction g generalizing seen with
  | nil => simp [names]
  | cons n g ih =>
    obtain ⟨h1, _, h3⟩ := h
    obtain ⟨h4, h5⟩ := ih h3
    refine ⟨?_, ?_⟩
    · simp only [names, List.map_cons, List.nodup_cons]
      refine ⟨fun hc => ?_, h4⟩
      exact (h5 n.name hc) (by simp)
    · intro a ha
      simp only [names, List.map_cons, List.mem_cons] at ha
      rcases ha with rfl | ha
      · exact h1
      · exact fun hs => h5 a ha (by simp [hs])

/-- In a well-formed graph nodes read only names seen before or defined in the graph. -/
theorem WF_refs {seen : List ℕ} {g : Graph} (h : WF seen g) : ∀ n ∈ g, ∀ a ∈ n.refs, a ∈ seen ∨ a ∈ names g := by
  induction g generalizing seen with
  | nil => simp
  | cons m g ih =>
    obtain ⟨_, h2, h3⟩ := h
    intro n hn a ha
    rcases List.mem_cons.1 hn with rfl | hn
    · exact Or.inl (h2 a ha)
    · rcases ih h3 n hn a ha with h | h
      · rcases List.mem_cons.1 h with rfl | h
        · exact Or.inr (by simp [names])
        · exact Or.inl h
      · exact Or.inr (by simp only [names, List.map_cons, List.mem_cons]; exact Or.inr h)

/-- A node of a well-formed graph reads neither itself nor later nodes. -/
theorem WF_split {seen : List ℕ} {pre post : Graph} {n : Node} (h : WF seen (pre ++ n :: post)) :
    n.name ∉ seen ∧ n.name ∉ names pre ∧ n.name ∉ names post ∧
    (∀ m ∈ pre, n.name ∉ m.refs) ∧ n.name ∉ n.refs := by
  obtain ⟨h1, h2⟩ := (WF_append _ _ _).1 h
  obtain ⟨h3, h4, h5⟩ := h2
  simp only [List.mem_append, List.mem_reverse, not_or] at h3
  refine ⟨h3.2, h3.1, ?_, ?_, ?_⟩
  · intro hc
    exact (WF_names h5).2 _ hc (by simp)
  · intro m hm hc
    rcases WF_refs h1 m hm _ hc with h | h
    · exact h3.2 h
    · exact h3.1 h
  · intro hc
    have := h4 _ hc
    simp only [List.mem_append, List.mem_reverse] at this
    rcases this with h | h
    · exact h3.1 h
    · exact h3.2 h

/-- A graph split at a node of a given name. -/
theorem exists_split {g : Graph} {a : ℕ} (h : a ∈ names g) :
    ∃ pre n post, g = pre ++ n :: post ∧ n.name = a ∧ a ∉ names pre := by
  induction g with
  | nil => simp [names] at h
  | cons m g ih =>
    by_cases hm : m.name = a
    · exact ⟨[], m, g, rfl, hm, by simp [names]⟩
    · simp only [names, List.map_cons, List.mem_cons] at h
      rcases h with h | h
      · exact absurd h.symm hm
      · obtain ⟨pre, n, post, h1, h2, h3⟩ := ih h
        refine ⟨m :: pre, n, post, by rw [h1]; rfl, h2, ?_⟩
        simp only [names, List.map_cons, List.mem_cons, not_or]
        exact ⟨fun h => hm h.symm, h3⟩

theorem insertCallAfter_split (m b a : ℕ) (pre post : Graph) (n : Node) (hn : n.name = a) (hpre : a ∉ names pre) :
    insertCallAfter m b a (pre ++ n :: post) = pre ++ n :: ⟨b, .call m, [.ref a]⟩ :: post := by
  induction pre with
  | nil => simp [insertCallAfter, hn]
  | cons k pre ih =>
    simp only [names, List.map_cons, List.mem_cons, not_or] at hpre
    simp only [List.cons_append, insertCallAfter, if_neg (fun h => hpre.1 h.symm : ¬ k.name = a)]
    rw [ih hpre.2]

/-- The rewriting of one node by `replaceAllUsesExcept`. -/
def rewire (a b : ℕ) (exc : List ℕ) (n : Node) : Node :=
  { n with args := Arg.mapList (fun x => if x = a ∧ n.name ∉ exc then b else x) n.args }

theorem replaceAllUsesExcept_eq (a b : ℕ) (exc : List ℕ) (g : Graph) :
    replaceAllUsesExcept a b exc g = g.map (rewire a b exc) := by
  unfold replaceAllUsesExcept
  apply List.map_congr_left
  intro n _
  split_ifs with h
  · rfl
  · unfold rewire
    rw [Arg.mapList_self]
    intro x hx
    rw [if_neg]
    rintro ⟨rfl, _⟩
    exact h hx

theorem rewire_of_notMem (a b : ℕ) (exc : List ℕ) (n : Node) (h : a ∉ n.refs) : rewire a b exc n = n := by
  unfold rewire
  rw [Arg.mapList_self]
  intro x hx
  rw [if_neg]
  rintro ⟨rfl, _⟩
  exact h hx

theorem map_rewire_of_notMem (a b : ℕ) (exc : List ℕ) (g : Graph) (h : ∀ n ∈ g, a ∉ n.refs) :
    g.map (rewire a b exc) = g := by
  conv_rhs => rw [← List.map_id g]
  exact List.map_congr_left fun n hn => rewire_of_notMem a b exc n (h n hn)

theorem names_map_rewire (a b : ℕ) (exc : List ℕ) (g : Graph) : names (g.map (rewire a b exc)) = names g := by
  simp [names, rewire, Function.comp_def]

/-- Rewired nodes read the value of `b` where the original ones read `h` of the value of `a`. -/
theorem exec_rewire (S : Sem V) (h : V → V) (a b : ℕ) (exc : List ℕ) (g : Graph) (env env' : ℕ → V)
    (ha : a ∉ names g) (hb : b ∉ names g) (hbr : ∀ n ∈ g, b ∉ n.refs)
    (heq : ∀ n, n ≠ b → env' n = env n) (hval : env' b = h (env a)) :
    ∀ n, n ≠ b → exec S (g.map (rewire a b exc)) env' n
      = execVia (fun u x v => if x = a ∧ u ∉ exc then h v else v) S g env n := by
  induction g generalizing env env' with
  | nil => exact heq
  | cons m g ih =>
    simp only [names, List.map_cons, List.mem_cons, not_or] at ha hb
    have hm := hbr m (by simp)
    simp only [List.map_cons, exec_cons, execVia]
    have hargs : Arg.mapList env' (rewire a b exc m).args
        = Arg.mapList (fun x => if x = a ∧ m.name ∉ exc then h (env x) else env x) m.args := by
      simp only [rewire, Arg.mapList_mapList]
      apply Arg.mapList_congr
      intro x hx
      have hxb : x ≠ b := fun hc => hm (by rw [← hc]; exact hx)
      by_cases hc : x = a ∧ m.name ∉ exc
      · rw [if_pos hc, if_pos hc, hval, hc.1]
      · rw [if_neg hc, if_neg hc, heq x hxb]
    rw [hargs]
    apply ih _ _ ha.2 hb.2 (fun n hn => hbr n (by simp [hn]))
    · intro n hn
      show Function.update env' m.name _ n = _
      by_cases hnm : n = m.name
      · subst hnm
        simp [rewire]
      · rw [Function.update_of_ne (by exact hnm), Function.update_of_ne hnm, heq n hn]
    · show Function.update env' m.name _ b = _
      rw [Function.update_of_ne hb.1, Function.update_of_ne ha.1, hval]

/-- Views that agree on what a graph reads give the same run. -/
theorem execVia_congr (S : Sem V) (v1 v2 : ℕ → ℕ → V → V) (g : Graph) (env : ℕ → V)
    (h : ∀ n ∈ g, ∀ x ∈ n.refs, v1 n.name x = v2 n.name x) : execVia v1 S g env = execVia v2 S g env := by
  induction g generalizing env with
  | nil => rfl
  | cons m g ih =>
    simp only [execVia]
    rw [Arg.mapList_congr m.args (g := fun a => v2 m.name a (env a)) (fun x hx => by rw [h m (by simp) x hx])]
    exact ih _ fun n hn => h n (by simp [hn])

/-- Two meanings that agree on the operations of a graph give the same run. -/
theorem exec_congr_sem (S S' : Sem V) (g : Graph) (env : ℕ → V) (h : ∀ n ∈ g, ∀ as, S.apply n.op as = S'.apply n.op as) :
    exec S g env = exec S' g env := by
  induction g generalizing env with
  | nil => rfl
  | cons m g ih =>
    rw [exec_cons, exec_cons, h m (by simp)]
    exact ih _ fun n hn => h n (by simp [hn])

/-- A node that a graph does not read does not matter. -/
theorem exec_agree (S : Sem V) (g : Graph) (bad : ℕ) (env env' : ℕ → V) (h : ∀ n ∈ g, bad ∉ n.refs)
    (heq : ∀ n, n ≠ bad → env n = env' n) : ∀ n, n ≠ bad → exec S g env n = exec S g env' n := by
  induction g generalizing env env' with
  | nil => exact heq
  | cons m g ih =>
    rw [exec_cons, exec_cons]
    have hargs : Arg.mapList env m.args = Arg.mapList env' m.args := by
      apply Arg.mapList_congr
      intro x hx
      exact heq x fun hc => h m (by simp) (by rw [← hc]; exact hx)
    rw [hargs]
    apply ih _ _ fun n hn => h n (by simp [hn])
    intro n hn
    by_cases hnm : n = m.name
    · subst hnm; simp
    · rw [Function.update_of_ne hnm, Function.update_of_ne hnm, heq n hn]

theorem findNode_some {g : Graph} {a : ℕ} {n : Node} (h : findNode g a = some n) : n ∈ g ∧ n.name = a := by
  refine ⟨List.mem_of_find?_eq_some h, ?_⟩
  have := List.find?_some h
  simpa using this

theorem replaceAllUsesWith_eq (a b : ℕ) (g : Graph) : replaceAllUsesWith a b g = g.map (rewire a b []) := by
  simp [replaceAllUsesWith, rewire]

/-- If a node has at most one user and `n` uses it, no other node does. -/
theorem numUsers_le_one {g : Graph} {p : ℕ} (h : ¬ 1 < numUsers g p) {pre post : Graph} {n : Node}
    (hg : g = pre ++ n :: post) (hn : p ∈ n.refs) : (∀ m ∈ pre, p ∉ m.refs) ∧ ∀ m ∈ post, p ∉ m.refs := by
  unfold numUsers at h
  rw [hg, List.filter_append, List.filter_cons, if_pos (by simpa using hn)] at h
  simp only [List.length_append, List.length_cons] at h
  have h1 : (pre.filter fun n => decide (p ∈ n.refs)).length = 0 := by omega
  have h2 : (post.filter fun n => decide (p ∈ n.refs)).length = 0 := by omega
  rw [List.length_eq_zero_iff, List.filter_eq_nil_iff] at h1 h2
  exact ⟨fun m hm => by simpa using h1 m hm, fun m hm => by simpa using h2 m hm⟩

/-- The targets of the module calls of a graph. -/
def targets (g : Graph) : List ℕ :=
  g.filterMap fun n => match n.op with
    | .call t => some t
    | _ => none

theorem mem_targets {g : Graph} {n : Node} {t : ℕ} (hn : n ∈ g) (ht : n.op = .call t) : t ∈ targets g :=
  List.mem_filterMap.2 ⟨n, hn, by rw [ht]⟩

theorem targets_append (g1 g2 : Graph) : targets (g1 ++ g2) = targets g1 ++ targets g2 := List.filterMap_append

theorem targets_cons_call {n : Node} {t : ℕ} (ht : n.op = .call t) (g : Graph) : targets (n :: g) = t :: targets g := by
  unfold targets
  rw [List.filterMap_cons, ht]

theorem targets_map_rewire (a b : ℕ) (exc : List ℕ) (g : Graph) : targets (g.map (rewire a b exc)) = targets g := by
  unfold targets
  rw [List.filterMap_map]
  rfl

/-- Fusing the node `B`, whose first operand is `L` and which is the only user of `L`, into `L`: the graph where `L` computes
what `B` computed and `B` is removed has the same values everywhere else. -/
theorem exec_fuse (S S' : Sem V) (pre mid post : Graph) (nL nB : Node)
    (hwf : WF [] (pre ++ nL :: (mid ++ nB :: post)))
    (honly : ∀ m ∈ mid, nL.name ∉ m.refs) (honly' : ∀ m ∈ post, nL.name ∉ m.refs)
    (hsem : ∀ n, n ∈ pre ∨ n ∈ mid ∨ n ∈ post → ∀ as, S.apply n.op as = S'.apply n.op as)
    (hfuse : ∀ e e' : ℕ → V, e' nL.name = S.apply nL.op (Arg.mapList e nL.args) →
      S.apply nB.op (Arg.mapList e' nB.args) = S'.apply nL.op (Arg.mapList e nL.args))
    (env : ℕ → V) :
    (∀ n, n ≠ nL.name → n ≠ nB.name →
      exec S' (pre ++ nL :: (mid ++ post.map (rewire nB.name nL.name []))) env n
        = exec S (pre ++ nL :: (mid ++ nB :: post)) env n) ∧
    exec S' (pre ++ nL :: (mid ++ post.map (rewire nB.name nL.name []))) env nL.name
      = exec S (pre ++ nL :: (mid ++ nB :: post)) env nB.name := by
  obtain ⟨_, l2, l3, l4, l5⟩ := WF_split hwf
  have hwf2 : WF [] ((pre ++ nL :: mid) ++ nB :: post) := by
    simpa [List.append_assoc] using hwf
  obtain ⟨_, b2, b3, b4, b5⟩ := WF_split hwf2
  simp only [names, List.map_append, List.map_cons, List.mem_append, List.mem_cons, not_or] at l3 b2
  have hne : nB.name ≠ nL.name := b2.2.1
  -- the two prefixes
  have e0 : exec S' pre env = exec S pre env :=
    (exec_congr_sem S S' pre env fun n hn as => hsem n (Or.inl hn) as).symm
  set e := exec S pre env with he
  set eL := Function.update e nL.name (S.apply nL.op (Arg.mapList e nL.args)) with heL
  set eL' := Function.update e nL.name (S'.apply nL.op (Arg.mapList e nL.args)) with heL'
  have m0 : ∀ env, exec S' mid env = exec S mid env := fun env =>
    (exec_congr_sem S S' mid env fun n hn as => hsem n (Or.inr (Or.inl hn)) as).symm
  have m1 : ∀ n, n ≠ nL.name → exec S mid eL n = exec S mid eL' n := by
    apply exec_agree S mid nL.name eL eL' honly
    intro n hn
    rw [heL, heL', Function.update_of_ne hn, Function.update_of_ne hn]
  have m2 : exec S mid eL nL.name = eL nL.name := exec_of_notMem S mid eL _ l3.1
  have m3 : exec S mid eL' nL.name = eL' nL.name := exec_of_notMem S mid eL' _ l3.1
  set eM := exec S mid eL with heM
  set eM' := exec S mid eL' with heM'
  set eB := Function.update eM nB.name (S.apply nB.op (Arg.mapList eM nB.args)) with heB
  have hB : eB nB.name = eM' nL.name := by
    rw [heB, Function.update_self, m3, heL', Function.update_self]
    exact hfuse e eM (by rw [m2, heL, Function.update_self])
  -- the suffix
  have p0 : ∀ env, exec S' (post.map (rewire nB.name nL.name [])) env = exec S (post.map (rewire nB.name nL.name [])) env := by
    intro env
    symm
    apply exec_congr_sem
    intro n hn as
    obtain ⟨m, hm, rfl⟩ := List.mem_map.1 hn
    exact hsem m (Or.inr (Or.inr hm)) as
  have p1 := exec_rewire S (fun v => v) nB.name nL.name [] post eB (Function.update eM' nB.name (eB nB.name)) b3
    l3.2.2 honly' (by
      intro n hn
      by_cases hnb : n = nB.name
      · subst hnb; rw [Function.update_self]
      · rw [Function.update_of_ne hnb, heB, Function.update_of_ne hnb, m1 n hn])
    (by rw [Function.update_of_ne hne.symm, hB])
  have p2 : execVia (fun u x (v : V) => if x = nB.name ∧ u ∉ ([] : List ℕ) then v else v) S post eB = exec S post eB := by
    apply execVia_congr
    intro n _ x _
    funext v
    simp
  rw [p2] at p1
  have p3 := exec_agree S (post.map (rewire nB.name nL.name [])) nB.name (Function.update eM' nB.name (eB nB.name)) eM'
    (by
      intro n hn
      obtain ⟨m, hm, rfl⟩ := List.mem_map.1 hn
      simp only [Node.refs, rewire, Arg.refsList_map, List.mem_map, not_exists, not_and]
      intro x _ hx
      by_cases hxb : x = nB.name
      · rw [if_pos ⟨hxb, by simp⟩] at hx
        exact hne hx.symm
      · rw [if_neg (by simp [hxb])] at hx
        exact hxb hx)
    (fun n hn => Function.update_of_ne hn _ _)
  have g1 : exec S' (pre ++ nL :: (mid ++ post.map (rewire nB.name nL.name []))) env
      = exec S (post.map (rewire nB.name nL.name [])) eM' := by
    rw [exec_append, e0, exec_cons, exec_append, m0, p0]
  have g2 : exec S (pre ++ nL :: (mid ++ nB :: post)) env = exec S post eB := by
    rw [exec_append, exec_cons, exec_append, exec_cons]
  rw [g1, g2]
  refine ⟨?_, ?_⟩
  · intro n hn1 hn2
    rw [← p3 n hn2]
    exact p1 n hn1
  · rw [exec_of_notMem S _ eM' _ (by rw [names_map_rewire]; exact l3.2.2), exec_of_notMem S post eB _ b3, hB]

/-- Removing the node `a` and reading `b` instead keeps a graph well formed. -/
theorem WF_rewire {a b : ℕ} {s s' : List ℕ} {g : Graph} (h : WF s g) (h1 : ∀ x ∈ s, x = a ∨ x ∈ s')
    (h2 : ∀ x ∈ s', x ∈ s) (hb : b ∈ s') : WF s' (g.map (rewire a b [])) := by
  induction g generalizing s s' with
  | nil => trivial
  | cons n g ih =>
    obtain ⟨w1, w2, w3⟩ := h
    refine ⟨fun hc => w1 (h2 _ hc), ?_, ?_⟩
    · intro x hx
      simp only [Node.refs, rewire, Arg.refsList_map, List.mem_map] at hx
      obtain ⟨y, hy, rfl⟩ := hx
      by_cases hya : y = a
      · rw [if_pos ⟨hya, by simp⟩]; exact hb
      · rw [if_neg (by simp [hya])]
        exact (h1 y (w2 y hy)).resolve_left hya
    · apply ih w3
      · intro x hx
        rcases List.mem_cons.1 hx with rfl | hx
        · exact Or.inr (by simp [rewire])
        · exact (h1 x hx).imp id fun h => by simp [h]
      · intro x hx
        rcases List.mem_cons.1 hx with rfl | hx
        · simp [rewire]
        · simp [h2 x hx]
      · simp [hb]

/-- The graph left by `replace_all_uses_with` and `erase_node`. -/
theorem eraseNode_replace {pre mid post : Graph} {nL nB : Node} (hwf : WF [] (pre ++ nL :: (mid ++ nB :: post))) :
    eraseNode nB.name (replaceAllUsesWith nB.name nL.name (pre ++ nL :: (mid ++ nB :: post)))
      = some (pre ++ nL :: (mid ++ post.map (rewire nB.name nL.name []))) := by
  have hwf2 : WF [] ((pre ++ nL :: mid) ++ nB :: post) := by simpa [List.append_assoc] using hwf
  obtain ⟨_, b2, b3, b4, b5⟩ := WF_split hwf2
  have hassoc : pre ++ nL :: (mid ++ nB :: post) = (pre ++ nL :: mid) ++ nB :: post := by simp
  have hne : nB.name ≠ nL.name := by
    intro h
    exact b2 (by simp [names, h])
  rw [replaceAllUsesWith_eq, hassoc, List.map_append, List.map_cons, map_rewire_of_notMem _ _ _ _ b4,
    rewire_of_notMem _ _ _ _ b5]
  have hpost : ∀ n ∈ post.map (rewire nB.name nL.name []), nB.name ∉ n.refs := by
    intro n hn
    obtain ⟨m, hm, rfl⟩ := List.mem_map.1 hn
    simp only [Node.refs, rewire, Arg.refsList_map, List.mem_map, not_exists, not_and]
    intro x _ hx
    by_cases hxb : x = nB.name
    · rw [if_pos ⟨hxb, by simp⟩] at hx
      exact hne hx.symm
    · rw [if_neg (by simp [hxb])] at hx
      exact hxb hx
  unfold eraseNode
  rw [if_neg]
  · congr 1
    rw [List.filter_append, List.filter_cons, if_neg (by simp)]
    have f1 : (pre ++ nL :: mid).filter (fun n => n.name != nB.name) = pre ++ nL :: mid := by
      rw [List.filter_eq_self]
      intro n hn
      simp only [bne_iff_ne, ne_eq]
      intro hc
      exact b2 (by rw [← hc]; exact List.mem_map_of_mem hn)
    have f2 : (post.map (rewire nB.name nL.name [])).filter (fun n => n.name != nB.name)
        = post.map (rewire nB.name nL.name []) := by
      rw [List.filter_eq_self]
      intro n hn
      simp only [bne_iff_ne, ne_eq]
      intro hc
      have : nB.name ∈ names (post.map (rewire nB.name nL.name [])) := List.mem_map.2 ⟨n, hn, hc⟩
      rw [names_map_rewire] at this
      exact b3 this
    rw [f1, f2]
    simp
  · simp only [List.any_eq_true, decide_eq_true_eq, not_exists, not_and]
    intro n hn
    rcases List.mem_append.1 hn with h | h
    · exact b4 n h
    · rcases List.mem_cons.1 h with rfl | h
      · exact b5
      · exact hpost n h

/-! ### Merging batch norms -/

open Brevitas.Net

theorem mergeBn_eval {L L' : Layer ℝ} {B : BatchNorm} (h : mergeBn L B = some L') (x : Signal ℝ) :
    L'.eval x = B.eval (L.eval x) := by
  unfold mergeBn at h
  split_ifs at h with hf
  simp only [Option.some.injEq] at h
  subst h
  obtain ⟨kind, outCh, inCh, taps, w, b, tap, norm⟩ := L
  simp only at hf
  subst hf
  funext c p
  by_cases hc : c < B.features
  · have key : ∀ (f : ℕ → ℕ → ℝ) (m : ℝ), (∑ i ∈ Finset.range inCh, ∑ t ∈ Finset.range taps, w c i t * m * f i t)
        = (∑ i ∈ Finset.range inCh, ∑ t ∈ Finset.range taps, w c i t * f i t) * m := by
      intro f m
      rw [Finset.sum_mul]
      refine Finset.sum_congr rfl fun i _ => ?_
      rw [Finset.sum_mul]
      exact Finset.sum_congr rfl fun t _ => by ring
    simp only [BatchNorm.eval, if_pos hc, Layer.eval]
    cases kind <;> cases b <;> simp only [Layer.sample, Layer.reads, Layer.biasAt, mulAddFromBn, key] <;> ring
  · simp only [BatchNorm.eval, if_neg hc, Layer.eval]

theorem mergeBnBn_eval {A A' B : BatchNorm} (h : mergeBnBn A B = some A') (x : Signal ℝ) :
    A'.eval x = B.eval (A.eval x) := by
  unfold mergeBnBn at h
  split_ifs at h with hf
  simp only [Option.some.injEq] at h
  subst h
  funext c p
  by_cases hc : c < A.features
  · have hcb : c < B.features := hf ▸ hc
    simp only [BatchNorm.eval, if_pos hc, if_pos hcb, mulAddFromBn]
    ring
  · have hcb : ¬ c < B.features := hf ▸ hc
    simp only [BatchNorm.eval, if_neg hc, if_neg hcb]

theorem mergeMod_forward {ml mb m : Mod} (h : mergeMod ml mb = some m) (as bs : List (Arg (Signal ℝ)))
    (hbs : firstTensor bs = ml.forward as) : m.forward as = mb.forward bs := by
  cases ml <;> cases mb <;> simp only [mergeMod, Option.map_eq_some_iff, reduceCtorEq] at h
  · obtain ⟨L', h1, rfl⟩ := h
    simp only [Mod.forward, hbs, mergeBn_eval h1]
  · obtain ⟨A', h1, rfl⟩ := h
    simp only [Mod.forward, hbs, mergeBnBn_eval h1]

/-- What a pass needs: a well-formed graph that calls every module once, all of them registered. -/
structure Once (st : GModel) : Prop where
  wf : WF [] st.graph
  nodup : (targets st.graph).Nodup
  live : ∀ t ∈ targets st.graph, t ∈ st.live

/-- Nodes that are not module calls survive, with the same value. -/
def SameResults (S : Sem (Signal ℝ)) (env : ℕ → Signal ℝ) (st st' : GModel) : Prop :=
  ∀ n ∈ st.graph, (∀ t, n.op ≠ .call t) →
    (∃ n' ∈ st'.graph, n'.name = n.name ∧ n'.op = n.op) ∧
    exec (st'.sem S) st'.graph env n.name = exec (st.sem S) st.graph env n.name

theorem mergeStep_spec (patterns : List (ℕ × ℕ)) {st st' : GModel} (hst : Once st) (name : ℕ)
    (h : mergeStep patterns st name = some st') (S : Sem (Signal ℝ)) (env : ℕ → Signal ℝ) :
    Once st' ∧ SameResults S env st st' := by
  have hsame : Once st ∧ SameResults S env st st :=
    ⟨hst, fun n hn _ => ⟨⟨n, hn, rfl, rfl⟩, rfl⟩⟩
  unfold mergeStep at h
  cases hfind : findNode st.graph name with
  | none => rw [hfind] at h; simp only [Option.some.injEq] at h; subst h; exact hsame
  | some nB =>
    rw [hfind] at h
    simp only at h
    cases hpair : callPair st.graph nB with
    | none => rw [hpair] at h; simp only [Option.some.injEq] at h; subst h; exact hsame
    | some ptt =>
      obtain ⟨p, tl, tb⟩ := ptt
      rw [hpair] at h
      simp only at h
      obtain ⟨hBmem, hBname⟩ := findNode_some hfind
      -- the two nodes
      unfold callPair at hpair
      split at hpair
      · rename_i q rest tb' hargs hop
        split at hpair
        · rename_i nm tl' largs hfindL
          simp only [Option.some.injEq, Prod.mk.injEq] at hpair
          obtain ⟨rfl, rfl, rfl⟩ := hpair
          obtain ⟨hLmem, hLname⟩ := findNode_some hfindL
          simp only at hLname
          set nL : Node := ⟨nm, .call tl', largs⟩ with hnL
          cases hml : st.mods tl' with
          | none => rw [hml] at h; simp only [Option.some.injEq] at h; subst h; exact hsame
          | some ml =>
            cases hmb : st.mods tb' with
            | none => rw [hml, hmb] at h; simp only [Option.some.injEq] at h; subst h; exact hsame
            | some mb =>
              rw [hml, hmb] at h
              simp only at h
              by_cases hcond : (ml.cls, mb.cls) ∈ patterns ∧ ¬ 1 < numUsers st.graph q
              · rw [if_pos hcond] at h
                cases hmerge : mergeMod ml mb with
                | none => rw [hmerge] at h; simp at h
                | some m =>
                  rw [hmerge] at h
                  simp only at h
                  -- positions
                  have hBref : nm ∈ nB.refs := by
                    simp [Node.refs, hargs, Arg.refsList, Arg.refs, hLname]
                  obtain ⟨pre', post, hsplit⟩ := List.append_of_mem hBmem
                  have hwfB : WF [] (pre' ++ nB :: post) := hsplit ▸ hst.wf
                  have hLpre : nL ∈ pre' := by
                    have h1 := hst.wf
                    rw [hsplit] at h1 hLmem
                    obtain ⟨_, w2⟩ := (WF_append _ _ _).1 h1
                    have h2 := w2.2.1 nm hBref
                    simp only [List.append_nil, List.mem_reverse] at h2
                    rcases List.mem_append.1 hLmem with h | h
                    · exact h
                    · exfalso
                      have h3 : nm ∈ names (nB :: post) := List.mem_map.2 ⟨nL, h, rfl⟩
                      exact (WF_names w2).2 nm h3 (by simpa using h2)
                  obtain ⟨pre, mid, hpre⟩ := List.append_of_mem hLpre
                  have hg : st.graph = pre ++ nL :: (mid ++ nB :: post) := by
                    rw [hsplit, hpre]; simp
                  have hwf : WF [] (pre ++ nL :: (mid ++ nB :: post)) := hg ▸ hst.wf
                  obtain ⟨o1, o2⟩ := numUsers_le_one (by rw [← hLname] at hcond; exact hcond.2) hsplit hBref
                  have herase := eraseNode_replace hwf
                  rw [← hg, hBname] at herase
                  rw [show q = nL.name from hLname.symm, herase] at h
                  simp only at h
                  have hopL : nL.op = .call tl' := rfl
                  have htg : targets st.graph = targets pre ++ tl' :: (targets mid ++ tb' :: targets post) := by
                    rw [hg, targets_append, targets_cons_call hopL, targets_append, targets_cons_call hop]
                  have hnd := hst.nodup
                  rw [htg] at hnd
                  have hlive := hst.live
                  rw [htg] at hlive
                  rw [if_pos (hlive tb' (by simp))] at h
                  simp only [Option.some.injEq] at h
                  subst h
                  have hnd' := hnd
                  simp only [List.nodup_append, List.nodup_cons, List.mem_append, List.mem_cons, not_or] at hnd'
                  obtain ⟨n1, ⟨⟨n2, n3, n4⟩, n5, ⟨n6, n7⟩, n8⟩, n9⟩ := hnd'
                  have htl : tl' ≠ tb' := n3
                  have hmemT : ∀ t, (t ∈ targets pre ∨ t ∈ targets mid ∨ t ∈ targets post) → t ≠ tl' ∧ t ≠ tb' := by
                    rintro t (ht | ht | ht)
                    · exact ⟨n9 t ht tl' (Or.inl rfl), n9 t ht tb' (Or.inr (Or.inr (Or.inl rfl)))⟩
                    · exact ⟨fun hc => n2 (hc ▸ ht), n8 t ht tb' (Or.inl rfl)⟩
                    · exact ⟨fun hc => n4 (hc ▸ ht), fun hc => n6 (hc ▸ ht)⟩
                  have hliveE : ∀ t, t ≠ tb' → (t ∈ st.live.erase tb' ↔ t ∈ st.live) := by
                    intro t ht
                    exact List.mem_erase_of_ne ht
                  set st' : GModel := ⟨pre ++ nL :: (mid ++ post.map (rewire name nL.name [])),
                    fun t => if t = tl' then some m else st.mods t, st.live.erase tb'⟩ with hst'
                  have hname : name = nB.name := hBname.symm
                  have hwfR : WF [] (pre ++ nL :: (mid ++ post.map (rewire nB.name nL.name []))) := by
                    obtain ⟨w1, w2, w3, w4⟩ := (WF_append _ _ _).1 hwf
                    obtain ⟨w5, w6, w7, w8⟩ := (WF_append _ _ _).1 w4
                    refine (WF_append _ _ _).2 ⟨w1, w2, w3, (WF_append _ _ _).2 ⟨w5, ?_⟩⟩
                    apply WF_rewire w8
                    · intro x hx
                      exact (List.mem_cons.1 hx)
                    · intro x hx
                      exact List.mem_cons_of_mem _ hx
                    · simp
                  refine ⟨⟨?_, ?_, ?_⟩, ?_⟩
                  · simp only [hst', hname]; exact hwfR
                  · simp only [hst', targets_append, targets_cons_call hopL, targets_map_rewire]
                    refine hnd.sublist ?_
                    refine List.Sublist.append_left ?_ _
                    refine List.Sublist.cons_cons _ ?_
                    exact List.Sublist.append_left (List.sublist_cons_self _ _) _
                  · intro t ht
                    simp only [hst', targets_append, targets_cons_call hopL, targets_map_rewire, List.mem_append,
                      List.mem_cons] at ht
                    simp only [hst']
                    have hne : t ≠ tb' := by
                      rcases ht with h | rfl | h | h
                      · exact (hmemT t (Or.inl h)).2
                      · exact htl
                      · exact (hmemT t (Or.inr (Or.inl h))).2
                      · exact (hmemT t (Or.inr (Or.inr h))).2
                    rw [hliveE t hne]
                    apply hlive
                    simp only [List.mem_append, List.mem_cons]
                    tauto
                  · have hfuse := exec_fuse (st.sem S) (st'.sem S) pre mid post nL nB hwf
                      (fun k hk => o1 k (by rw [hpre]; simp [hk])) o2
                      (by
                        intro n hn as
                        cases hop' : n.op with
                        | call t =>
                          have htm : t ∈ targets pre ∨ t ∈ targets mid ∨ t ∈ targets post :=
                            hn.imp (fun h => mem_targets h hop') fun h =>
                              h.imp (fun h => mem_targets h hop') fun h => mem_targets h hop'
                          obtain ⟨a1, a2⟩ := hmemT t htm
                          simp only [Sem.apply, GModel.sem, hst', hliveE t a2, if_neg a1]
                        | placeholder k => rfl
                        | fn f => rfl
                        | cat d => rfl
                        | output => rfl)
                      (by
                        intro e e' he
                        rw [hop, hopL] at *
                        simp only [Sem.apply, GModel.sem, hst', if_pos (hlive tb' (by simp)), hmb, if_true,
                          if_pos ((hliveE tl' htl).2 (hlive tl' (by simp))), if_pos (hlive tl' (by simp)), hml] at he ⊢
                        symm
                        apply mergeMod_forward hmerge
                        rw [hargs]
                        simp only [Arg.mapList, Arg.map, firstTensor]
                        rw [← hLname]
                        exact he)
                      env
                    intro n hn hnc
                    have hnL : n.name ≠ nL.name := by
                      intro hc
                      have : n = nL := by
                        have hnd := (WF_names hst.wf).1
                        exact List.inj_on_of_nodup_map hnd hn hLmem hc
                      exact hnc tl' (by rw [this])
                    have hnB : n.name ≠ nB.name := by
                      intro hc
                      have : n = nB := List.inj_on_of_nodup_map (WF_names hst.wf).1 hn hBmem hc
                      exact hnc tb' (by rw [this]; exact hop)
                    refine ⟨?_, ?_⟩
                    · rw [hg] at hn
                      simp only [List.mem_append, List.mem_cons] at hn
                      simp only [hst', List.mem_append, List.mem_cons, List.mem_map]
                      rcases hn with h | rfl | h | rfl | h
                      · exact ⟨n, Or.inl h, rfl, rfl⟩
                      · exact absurd rfl hnL
                      · exact ⟨n, Or.inr (Or.inr (Or.inl h)), rfl, rfl⟩
                      · exact absurd rfl hnB
                      · exact ⟨rewire name nL.name [] n, Or.inr (Or.inr (Or.inr ⟨n, h, rfl⟩)), rfl, rfl⟩
                    · have := hfuse.1 n.name hnL hnB
                      rw [← hg, ← hname] at this
                      exact this
              · rw [if_neg hcond] at h
                simp only [Option.some.injEq] at h; subst h; exact hsame
        · simp at hpair
      · simp at hpair

theorem mergeBatchNorm_spec (patterns : List (ℕ × ℕ)) {st st' : GModel} (hst : Once st)
    (h : mergeBatchNorm patterns st = some st') (S : Sem (Signal ℝ)) (env : ℕ → Signal ℝ) :
    Once st' ∧ SameResults S env st st' := by
  unfold mergeBatchNorm at h
  generalize names st.graph = l at h
  induction l generalizing st with
  | nil =>
    simp only [List.foldlM_nil, Option.pure_def, Option.some.injEq] at h
    subst h
    exact ⟨hst, fun n hn _ => ⟨⟨n, hn, rfl, rfl⟩, rfl⟩⟩
  | cons a l ih =>
    rw [List.foldlM_cons, Option.bind_eq_bind, Option.bind_eq_some_iff] at h
    obtain ⟨s1, h1, h2⟩ := h
    obtain ⟨w1, r1⟩ := mergeStep_spec patterns hst a h1 S env
    obtain ⟨w2, r2⟩ := ih w1 h2
    refine ⟨w2, ?_⟩
    intro n hn hnc
    obtain ⟨⟨n', hn', e1, e2⟩, e3⟩ := r1 n hn hnc
    obtain ⟨⟨n'', hn'', e4, e5⟩, e6⟩ := r2 n' hn' (by rw [e2]; exact hnc)
    refine ⟨⟨n'', hn'', e4.trans e1, e5.trans e2⟩, ?_⟩
    rw [← e3, ← e1, e6]

end Brevitas.Fx
