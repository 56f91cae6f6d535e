import Verif.Model.RemoveStochastic
import Verif.Spec.Evaluation
import Verif.Lemmas.Fx
import Verif.Lemmas.FxCat

/-! # Lemmas on the removal of nodes that pass their input on -/

namespace Brevitas.Standardize

open Brevitas.Fx (Arg)
open Spec

variable {V : Type*}

theorem evalNode_args (S : Sem V) (mods : Mods V) (n : Node) (args : List (Arg ℕ)) (as : List (Arg V)) :
    evalNode S mods { n with args := args } as = evalNode S mods n as := rfl

theorem exec_other (S : Sem V) (mods : Mods V) (g : List Node) (env e : ℕ → V) (h : exec S mods g env = some e) (m : ℕ)
    (hm : m ∉ g.map Node.name) : e m = env m := by
  induction g generalizing env with
  | nil => simp only [exec, Option.some.injEq] at h; rw [h]
  | cons n g ih =>
    simp only [List.map_cons, List.mem_cons, not_or] at hm
    simp only [exec, Option.bind_eq_some_iff] at h
    obtain ⟨v, _, h⟩ := h
    rw [ih _ h hm.2, Function.update_of_ne hm.1]

theorem ordered_disjoint {seen : List ℕ} {g : List Node} (h : Ordered seen g) : ∀ m ∈ g.map Node.name, m ∉ seen := by
  induction g generalizing seen with
  | nil => simp
  | cons n g ih =>
    intro m hm hs
    simp only [List.map_cons, List.mem_cons] at hm
    rcases hm with rfl | hm
    · exact h.1 hs
    · exact ih h.2.2 m hm (by simp [hs])

theorem ordered_nodup {seen : List ℕ} {g : List Node} (h : Ordered seen g) : (g.map Node.name).Nodup := by
  induction g generalizing seen with
  | nil => simp
  | cons n g ih =>
    rw [List.map_cons, List.nodup_cons]
    exact ⟨fun hm => ordered_disjoint h.2.2 _ hm (by simp), ih h.2.2⟩

theorem ordered_refs {seen : List ℕ} {g : List Node} (h : Ordered seen g) :
    ∀ n ∈ g, ∀ a ∈ Arg.refsList n.args, a ∈ seen ∨ a ∈ g.map Node.name := by
  induction g generalizing seen with
  | nil => simp
  | cons m g ih =>
    intro n hn a ha
    rcases List.mem_cons.mp hn with rfl | hn
    · exact Or.inl (h.2.1 a ha)
    · rcases ih h.2.2 n hn a ha with h' | h'
      · rcases List.mem_cons.mp h' with rfl | h'
        · right; simp
        · exact Or.inl h'
      · right; rw [List.map_cons]; exact List.mem_cons_of_mem _ h'

/-- A run of an ordered graph is the one valuation in which every node has the value of its operation. -/
theorem exec_iff (S : Sem V) (mods : Mods V) (g : List Node) (seen : List ℕ) (h : Ordered seen g) (env e : ℕ → V) :
    exec S mods g env = some e ↔
      (∀ n ∈ g, evalNode S mods n (Arg.mapList e n.args) = some (e n.name)) ∧ ∀ m, m ∉ g.map Node.name → e m = env m := by
  induction g generalizing seen env with
  | nil =>
    simp only [exec, Option.some.injEq, List.not_mem_nil, false_implies, implies_true, true_and, List.map_nil, not_false_eq_true, forall_const]
    exact ⟨fun h m => by rw [h], fun h => (funext h).symm⟩
  | cons n g ih =>
    have hnd := ordered_nodup h
    rw [List.map_cons, List.nodup_cons] at hnd
    have hargs : ∀ (e' : ℕ → V), (∀ m, m ∉ n.name :: g.map Node.name → e' m = env m) → Arg.mapList e' n.args = Arg.mapList env n.args := by
      intro e' he'
      apply Arg.mapList_congr
      intro a ha
      apply he'
      intro hm
      exact ordered_disjoint h a hm (h.2.1 a ha)
    constructor
    · intro hx
      have hoth : ∀ m, m ∉ n.name :: g.map Node.name → e m = env m := by
        intro m hm
        exact exec_other S mods (n :: g) env e hx m (by simpa using hm)
      simp only [exec, Option.bind_eq_some_iff] at hx
      obtain ⟨v, hv, hx⟩ := hx
      have hen : e n.name = v := by rw [exec_other S mods g _ e hx n.name hnd.1, Function.update_self]
      refine ⟨?_, by simpa using hoth⟩
      intro m hm
      rcases List.mem_cons.mp hm with rfl | hm
      · rw [hargs e hoth, hv, hen]
      · exact ((ih _ h.2.2 _).mp hx).1 m hm
    · rintro ⟨hall, hoth⟩
      rw [List.map_cons] at hoth
      simp only [exec, Option.bind_eq_some_iff]
      refine ⟨e n.name, ?_, (ih _ h.2.2 _).mpr ⟨fun m hm => hall m (List.mem_cons_of_mem _ hm), ?_⟩⟩
      · rw [← hargs e hoth]; exact hall n (by simp)
      · intro m hm
        by_cases hmn : m = n.name
        · rw [hmn, Function.update_self]
        · rw [Function.update_of_ne hmn]
          exact hoth m (by simp [hmn, hm])

/-- References to `k` replaced by references to `p`. -/
def redirect (k p m : ℕ) : ℕ := if m = k then p else m

/-- The node with its references to `k` replaced. -/
def redirectNode (k p : ℕ) (u : Node) : Node := { u with args := Arg.mapList (redirect k p) u.args }

theorem redirectNode_self (k p : ℕ) (u : Node) (h : k ∉ Arg.refsList u.args) : redirectNode k p u = u := by
  have : Arg.mapList (redirect k p) u.args = u.args := by
    apply Arg.mapList_self
    intro x hx
    unfold redirect
    rw [if_neg]
    rintro rfl
    exact h hx
  cases u
  simp only [redirectNode] at *
  rw [this]

theorem refsList_cons {α : Type*} (a : Arg α) (as : List (Arg α)) : Arg.refsList (a :: as) = a.refs ++ Arg.refsList as := rfl

theorem filter_isRef_self (k : ℕ) (as : List (Arg ℕ)) (h : k ∉ Arg.refsList as) : (as.filter fun a => !isRef k a) = as := by
  rw [List.filter_eq_self]
  intro a ha
  cases a with
  | ref m =>
    simp only [isRef, Bool.not_eq_true', beq_eq_false_iff_ne]
    rintro rfl
    apply h
    clear h
    induction as with
    | nil => simp at ha
    | cons b as ih =>
      rw [refsList_cons, List.mem_append]
      rcases List.mem_cons.mp ha with rfl | ha
      · left; simp [Arg.refs]
      · exact Or.inr (ih ha)
  | const _ => rfl
  | seq _ => rfl

/-- Taking the single positional occurrence out and inserting the input there is replacing the reference. -/
theorem splice_eq (k p : ℕ) (as : List (Arg ℕ)) (h : (Arg.refsList as).count k ≤ 1) (hk : as.findIdx (isRef k) ≠ as.length) :
    (as.filter fun a => !isRef k a).take (as.findIdx (isRef k)) ++
      ([Arg.ref p] ++ (as.filter fun a => !isRef k a).drop (as.findIdx (isRef k))) = Arg.mapList (redirect k p) as := by
  induction as with
  | nil => simp at hk
  | cons a as ih =>
    rw [refsList_cons, List.count_append] at h
    by_cases ha : isRef k a = true
    · have hak : a = .ref k := by
        cases a with
        | ref m => simp only [isRef, beq_iff_eq] at ha; rw [ha]
        | const _ => simp [isRef] at ha
        | seq _ => simp [isRef] at ha
      subst hak
      have h1 : k ∉ Arg.refsList as := by
        intro hc
        have := List.count_pos_iff.mpr hc
        simp only [Arg.refs, List.count_singleton_self] at h
        omega
      have h2 : Arg.mapList (redirect k p) as = as := by
        apply Arg.mapList_self
        intro x hx
        unfold redirect
        rw [if_neg]
        rintro rfl
        exact h1 hx
      rw [List.findIdx_cons, ha, List.filter_cons, ha, filter_isRef_self k as h1, Arg.mapList, h2]
      simp [Arg.map, redirect]
    · have hf : isRef k a = false := by simpa using ha
      rw [List.findIdx_cons, hf] at hk
      simp only [cond_false, List.length_cons, ne_eq, Nat.add_right_cancel_iff] at hk
      have hlt : as.findIdx (isRef k) < as.length := lt_of_le_of_ne List.findIdx_le_length hk
      have hin : k ∈ Arg.refsList as := by
        have hg := List.findIdx_getElem (w := hlt)
        have hm := List.getElem_mem hlt
        generalize as[List.findIdx (isRef k) as] = b at hg hm
        by_contra hnot
        have := filter_isRef_self k as hnot
        rw [List.filter_eq_self] at this
        have := this b hm
        rw [hg] at this
        simp at this
      have h1 : k ∉ a.refs := by
        intro hc
        have := List.count_pos_iff.mpr hc
        have := List.count_pos_iff.mpr hin
        omega
      have h2 : a.map (redirect k p) = a := by
        rw [Arg.map_congr a (g := fun x => x), Arg.map_id]
        intro x hx
        unfold redirect
        rw [if_neg]
        rintro rfl
        exact h1 hx
      rw [List.findIdx_cons, hf, List.filter_cons, hf, Arg.mapList, h2, ← ih (by omega) hk]
      simp

theorem eraseDups_single (p : ℕ) : ([p] : List ℕ).eraseDups = [p] := by rfl

/-- What one step does to a graph whose node passes its input on: the node goes, references to it become references to its input. -/
theorem removeNode_eq (g g' : List Node) (n : Node) (p : ℕ) (hn : n ∈ g) (hnd : (g.map Node.name).Nodup)
    (hp : Arg.refsList n.args = [p]) (hself : n.name ≠ p) (honce : ReadOnce g n.name) (h : removeNode g n = some g') :
    g' = (g.filter fun m => m.name ≠ n.name).map (redirectNode n.name p) := by
  unfold removeNode at h
  generalize hus : (g.filter fun u => decide (n.name ∈ Arg.refsList u.args)) = us at h
  match us with
  | [] => exact nomatch h
  | u :: others =>
    have hu : u ∈ g ∧ n.name ∈ Arg.refsList u.args := by
      have : u ∈ g.filter fun u => decide (n.name ∈ Arg.refsList u.args) := by rw [hus]; simp
      simpa using this
    dsimp only at h
    by_cases hk : u.args.findIdx (isRef n.name) = u.args.length
    · rw [if_pos hk] at h; exact nomatch h
    · rw [if_neg hk, hp, eraseDups_single, List.map_singleton, splice_eq n.name p u.args (honce u hu.1) hk] at h
      by_cases ho : others ≠ [] ∨ n.name ∈ Arg.refsList (Arg.mapList (redirect n.name p) u.args)
      · rw [if_pos ho] at h; exact nomatch h
      · rw [if_neg ho, Option.some.injEq] at h
        rw [← h]
        push Not at ho
        have hmap : (g.map fun m => if m.name = u.name then { m with args := Arg.mapList (redirect n.name p) u.args } else m) =
            g.map (redirectNode n.name p) := by
          apply List.map_congr_left
          intro m hm
          by_cases hmu : m.name = u.name
          · have : m = u := List.inj_on_of_nodup_map hnd hm hu.1 hmu
            rw [if_pos hmu, this]; rfl
          · rw [if_neg hmu, redirectNode_self]
            intro hc
            have : m ∈ u :: others := by rw [← hus]; simp [hm, hc]
            rw [ho.1, List.mem_singleton] at this
            rw [this] at hmu
            exact hmu rfl
        rw [hmap, List.filter_map]
        rfl

theorem ordered_append {seen : List ℕ} {A B : List Node} :
    Ordered seen (A ++ B) ↔ Ordered seen A ∧ Ordered ((A.map Node.name).reverse ++ seen) B := by
  induction A generalizing seen with
  | nil => simp [Ordered]
  | cons a A ih =>
    simp only [List.cons_append, Ordered, ih, List.map_cons, List.reverse_cons, List.append_assoc, List.singleton_append]
    tauto

theorem ordered_redirect (k p : ℕ) (rest : List Node) (seen seen' : List ℕ) (h : Ordered seen rest) (hk : k ∈ seen)
    (hsub : ∀ a ∈ seen', a ∈ seen) (hs : ∀ a ∈ seen, redirect k p a ∈ seen') : Ordered seen' (rest.map (redirectNode k p)) := by
  induction rest generalizing seen seen' with
  | nil => exact trivial
  | cons n rest ih =>
    refine ⟨fun hc => h.1 (hsub _ hc), ?_, ih (n.name :: seen) (n.name :: seen') h.2.2 (by simp [hk]) ?_ ?_⟩
    · intro a ha
      simp only [redirectNode, Arg.refsList_map, List.mem_map] at ha
      obtain ⟨b, hb, rfl⟩ := ha
      exact hs b (h.2.1 b hb)
    · intro a ha
      rcases List.mem_cons.mp ha with rfl | ha
      · simp [redirectNode]
      · exact List.mem_cons_of_mem _ (hsub a ha)
    · intro a ha
      rcases List.mem_cons.mp ha with rfl | ha
      · have : n.name ≠ k := fun h2 => h.1 (h2 ▸ hk)
        unfold redirect
        rw [if_neg this]
        simp [redirectNode]
      · exact List.mem_cons_of_mem _ (hs a ha)

theorem redirectNode_name (k p : ℕ) : (Node.name ∘ redirectNode k p) = Node.name := rfl

/-- One step keeps the values of all other nodes. -/
theorem remove_values (S : Sem V) (mods : Mods V) (A B : List Node) (n : Node) (p : ℕ) (rest : List (Arg ℕ)) (env e : ℕ → V)
    (h : Ordered [] (A ++ n :: B)) (h' : Ordered [] (A ++ B.map (redirectNode n.name p)))
    (hargs : n.args = .ref p :: rest)
    (hpass : ∀ (v : V) (e : ℕ → V), evalNode S mods n (.ref v :: Arg.mapList e rest) = some v) (hA : A.map (redirectNode n.name p) = A)
    (hx : exec S mods (A ++ n :: B) env = some e) :
    exec S mods (A ++ B.map (redirectNode n.name p)) env = some (Function.update e n.name (env n.name)) := by
  rw [exec_iff S mods _ [] h] at hx
  rw [exec_iff S mods _ [] h']
  obtain ⟨hall, hoth⟩ := hx
  have hn : n ∈ A ++ n :: B := by simp
  have hnd := ordered_nodup h
  have hpn : e n.name = e p := by
    have := hall n hn
    rw [hargs, Arg.mapList, Arg.map, hpass] at this
    exact (Option.some.inj this).symm
  have hne : p ≠ n.name := by
    have h2 := (ordered_append.mp h).2
    have : p ∈ (A.map Node.name).reverse ++ [] := h2.2.1 p (by rw [hargs]; simp [Arg.refsList, Arg.refs])
    intro hc
    rw [hc] at this
    exact h2.1 this
  have hval : ∀ u ∈ A ++ B, evalNode S mods (redirectNode n.name p u)
      (Arg.mapList (Function.update e n.name (env n.name)) (redirectNode n.name p u).args) =
        some (Function.update e n.name (env n.name) u.name) := by
    intro u hu
    have hug : u ∈ A ++ n :: B := by
      rcases List.mem_append.mp hu with hu | hu <;> simp [hu]
    have hun : u.name ≠ n.name := by
      rw [List.map_append, List.map_cons, List.nodup_append] at hnd
      obtain ⟨_, h2, h3⟩ := hnd
      rw [List.nodup_cons] at h2
      rcases List.mem_append.mp hu with hu | hu
      · exact h3 _ (List.mem_map_of_mem hu) _ (by simp)
      · intro hc
        apply h2.1
        rw [← hc]
        exact List.mem_map_of_mem hu
    have he : Arg.mapList (Function.update e n.name (env n.name)) (redirectNode n.name p u).args = Arg.mapList e u.args := by
      simp only [redirectNode, Arg.mapList_mapList]
      apply Arg.mapList_congr
      intro a _
      unfold redirect
      by_cases ha : a = n.name
      · rw [if_pos ha, Function.update_of_ne hne, ha, hpn]
      · rw [if_neg ha, Function.update_of_ne ha]
    rw [he, Function.update_of_ne hun, ← hall u hug]
    rfl
  have hAB : A ++ B.map (redirectNode n.name p) = (A ++ B).map (redirectNode n.name p) := by rw [List.map_append, hA]
  constructor
  · intro u hu
    rw [hAB, List.mem_map] at hu
    obtain ⟨w, hw, rfl⟩ := hu
    exact hval w hw
  · intro m hm
    by_cases hmn : m = n.name
    · rw [hmn, Function.update_self]
    · rw [Function.update_of_ne hmn]
      apply hoth
      intro hc
      apply hm
      simp only [List.map_append, List.map_cons, List.mem_append, List.mem_cons, List.map_map, redirectNode_name] at hc ⊢
      tauto

/-- A graph without the node runs only if the graph with it does. -/
theorem remove_values_back (S : Sem V) (mods : Mods V) (A B : List Node) (n : Node) (p : ℕ) (rest : List (Arg ℕ)) (env e : ℕ → V)
    (h : Ordered [] (A ++ n :: B)) (h' : Ordered [] (A ++ B.map (redirectNode n.name p)))
    (hargs : n.args = .ref p :: rest)
    (hpass : ∀ (v : V) (e : ℕ → V), evalNode S mods n (.ref v :: Arg.mapList e rest) = some v) (hA : A.map (redirectNode n.name p) = A)
    (hx : exec S mods (A ++ B.map (redirectNode n.name p)) env = some e) :
    exec S mods (A ++ n :: B) env = some (Function.update e n.name (e p)) := by
  rw [exec_iff S mods _ [] h'] at hx
  rw [exec_iff S mods _ [] h]
  obtain ⟨hall, hoth⟩ := hx
  have hnd := ordered_nodup h
  have hne : p ≠ n.name := by
    have h2 := (ordered_append.mp h).2
    have : p ∈ (A.map Node.name).reverse ++ [] := h2.2.1 p (by rw [hargs]; simp [Arg.refsList, Arg.refs])
    intro hc
    rw [hc] at this
    exact h2.1 this
  have hAB : A ++ B.map (redirectNode n.name p) = (A ++ B).map (redirectNode n.name p) := by rw [List.map_append, hA]
  constructor
  · intro u hu
    by_cases hun : u = n
    · rw [hun, hargs, Arg.mapList, Arg.map, hpass, Function.update_self, Function.update_of_ne hne]
    · have hu' : u ∈ A ++ B := by
        simp only [List.mem_append, List.mem_cons] at hu ⊢
        tauto
      have hname : u.name ≠ n.name := fun hc => hun (List.inj_on_of_nodup_map hnd hu (by simp) hc)
      have h1 := hall (redirectNode n.name p u) (by rw [hAB]; exact List.mem_map_of_mem hu')
      have he : Arg.mapList e (redirectNode n.name p u).args = Arg.mapList (Function.update e n.name (e p)) u.args := by
        simp only [redirectNode, Arg.mapList_mapList]
        apply Arg.mapList_congr
        intro a _
        unfold redirect
        by_cases ha : a = n.name
        · rw [if_pos ha, ha, Function.update_self]
        · rw [if_neg ha, Function.update_of_ne ha]
      rw [← he, Function.update_of_ne hname]
      exact h1
  · intro m hm
    simp only [List.map_append, List.map_cons, List.mem_append, List.mem_cons, not_or] at hm
    rw [Function.update_of_ne hm.2.1]
    apply hoth
    simp only [List.map_append, List.map_map, redirectNode_name, List.mem_append, not_or]
    exact ⟨hm.1, hm.2.2⟩

theorem removeNode_some (g : List Node) (n : Node) (p : ℕ) (hp : Arg.refsList n.args = [p]) (hself : n.name ≠ p)
    (hnd : (g.map Node.name).Nodup) (hread : ReadDirectly g n.name) : ∃ g', removeNode g n = some g' := by
  obtain ⟨u, hu, huniq, hdir, hcount⟩ := hread
  have hmem : n.name ∈ Arg.refsList u.args := List.count_pos_iff.mp (by omega)
  have hus : (g.filter fun u => decide (n.name ∈ Arg.refsList u.args)) = [u] := by
    have h1 : ∀ w ∈ g.filter fun u => decide (n.name ∈ Arg.refsList u.args), w = u := by
      intro w hw
      simp only [List.mem_filter, decide_eq_true_eq] at hw
      exact huniq w hw.1 hw.2
    have h2 : u ∈ g.filter fun u => decide (n.name ∈ Arg.refsList u.args) := by simp [hu, hmem]
    have h3 : (g.filter fun u => decide (n.name ∈ Arg.refsList u.args)).Nodup := (List.Nodup.of_map _ hnd).filter _
    generalize (g.filter fun u => decide (n.name ∈ Arg.refsList u.args)) = l at h1 h2 h3
    match l with
    | [] => simp at h2
    | [a] => rw [h1 a (by simp)]
    | a :: b :: r =>
      have := h1 a (by simp)
      have := h1 b (by simp)
      simp_all
  have hk : u.args.findIdx (isRef n.name) ≠ u.args.length := by
    have : u.args.findIdx (isRef n.name) < u.args.length := List.findIdx_lt_length_of_exists ⟨_, hdir, by simp [isRef]⟩
    omega
  unfold removeNode
  simp only [hus]
  rw [if_neg hk, hp, eraseDups_single, List.map_singleton, splice_eq n.name p u.args (by omega) hk, if_neg]
  · exact ⟨_, rfl⟩
  · simp only [ne_eq, not_true_eq_false, false_or, Arg.refsList_map, List.mem_map, not_exists, not_and]
    intro x _ hx
    unfold redirect at hx
    split_ifs at hx with h
    · exact hself hx.symm
    · exact h hx

theorem readDirectly_readOnce {g : List Node} {k : ℕ} (h : ReadDirectly g k) : ReadOnce g k := by
  obtain ⟨u, _, huniq, _, hcount⟩ := h
  intro w hw
  by_cases hm : k ∈ Arg.refsList w.args
  · rw [huniq w hw hm]; omega
  · rw [List.count_eq_zero.mpr hm]; omega

theorem count_redirect (k p m : ℕ) (hk : m ≠ k) (hp : m ≠ p) (l : List ℕ) : (l.map (redirect k p)).count m = l.count m := by
  induction l with
  | nil => rfl
  | cons a l ih =>
    rw [List.map_cons, List.count_cons, List.count_cons, ih]
    congr 1
    unfold redirect
    by_cases ha : a = k
    · rw [if_pos ha]
      have h1 : (p == m) = false := by simpa using Ne.symm hp
      have h2 : (a == m) = false := by rw [ha]; simpa using Ne.symm hk
      rw [h1, h2]
    · rw [if_neg ha]

theorem mem_mapList {α β : Type*} (f : α → β) (as : List (Arg α)) (a : Arg α) (h : a ∈ as) : a.map f ∈ Arg.mapList f as := by
  induction as with
  | nil => simp at h
  | cons b as ih =>
    rw [Arg.mapList]
    rcases List.mem_cons.mp h with rfl | h
    · simp
    · exact List.mem_cons_of_mem _ (ih h)

theorem passesOn_redirect (S : Sem V) (mods : Mods V) (n : Node) (k p : ℕ) (h : PassesOn S mods n) :
    PassesOn S mods (redirectNode k p n) := by
  obtain ⟨q, rest, h1, h2, h3⟩ := h
  refine ⟨redirect k p q, Arg.mapList (redirect k p) rest, ?_, ?_, ?_⟩
  · simp [redirectNode, h1, Arg.mapList, Arg.map]
  · rw [Arg.refsList_map, h2]; rfl
  · intro v e
    rw [Arg.mapList_mapList]
    exact h3 v _

theorem removeStochasticFrom_values (S : Sem V) (mods : Mods V) (stoch : ℕ → Bool) (B : List Node) :
    ∀ (A : List Node), Ordered [] (A ++ B) →
      (∀ n ∈ B, stoch n.name = true → PassesOn S mods n ∧ ReadDirectly (A ++ B) n.name) →
      ∃ g', removeStochasticFrom stoch (B.map Node.name) (A ++ B) = some g' ∧ Ordered [] g' ∧
        g'.map Node.name = A.map Node.name ++ (B.map Node.name).filter (fun k => !stoch k) ∧
        (∀ env e, exec S mods (A ++ B) env = some e →
          ∃ e', exec S mods g' env = some e' ∧ ∀ m ∈ g'.map Node.name, e' m = e m) ∧
        ∀ env, exec S mods (A ++ B) env = none → exec S mods g' env = none := by
  generalize hlen : B.length = len
  induction len generalizing B with
  | zero =>
    intro A hord _
    rw [List.length_eq_zero_iff] at hlen
    subst hlen
    exact ⟨A ++ [], rfl, hord, by simp, fun env e h => ⟨e, h, fun _ _ => rfl⟩, fun env h => h⟩
  | succ len ih =>
    intro A hord hst
    match B, hlen with
    | n :: B, hlen =>
    have hlen : B.length = len := by simpa using hlen
    by_cases hs : stoch n.name = true
    · obtain ⟨⟨p, rest, hargs, hrest, hpass⟩, hread⟩ := hst n (by simp) hs
      have hrefs : Arg.refsList n.args = [p] := by rw [hargs, refsList_cons, hrest]; rfl
      have hord2 := (ordered_append.mp hord).2
      have hpA : p ∈ A.map Node.name := by
        have := hord2.2.1 p (by simp [hrefs])
        simpa using this
      have hnA : n.name ∉ A.map Node.name := by
        have := hord2.1
        simpa using this
      have hne : n.name ≠ p := fun hc => hnA (hc ▸ hpA)
      have hnd := ordered_nodup hord
      obtain ⟨g1, hg1⟩ := removeNode_some (A ++ n :: B) n p hrefs hne hnd hread
      have hnB : n.name ∉ B.map Node.name := by
        rw [List.map_append, List.nodup_append] at hnd
        exact (List.nodup_cons.mp hnd.2.1).1
      have hA : A.map (redirectNode n.name p) = A := by
        conv_rhs => rw [← List.map_id A]
        apply List.map_congr_left
        intro a ha
        rw [redirectNode_self]; rfl
        intro hc
        rcases ordered_refs (ordered_append.mp hord).1 a ha _ hc with h | h
        · simp at h
        · exact hnA h
      have hg1' : g1 = A ++ B.map (redirectNode n.name p) := by
        rw [removeNode_eq _ g1 n p (by simp) hnd hrefs hne (readDirectly_readOnce hread) hg1, List.filter_append, List.filter_cons]
        simp only [ne_eq, not_true_eq_false, decide_false, Bool.false_eq_true, if_false]
        have e1 : (A.filter fun m => !decide (m.name = n.name)) = A := by
          rw [List.filter_eq_self]
          intro a ha
          simp only [Bool.not_eq_true', decide_eq_false_iff_not]
          intro hc; exact hnA (hc ▸ List.mem_map_of_mem ha)
        have e2 : (B.filter fun m => !decide (m.name = n.name)) = B := by
          rw [List.filter_eq_self]
          intro a ha
          simp only [Bool.not_eq_true', decide_eq_false_iff_not]
          intro hc; exact hnB (hc ▸ List.mem_map_of_mem ha)
        simp only [decide_not]
        rw [e1, e2, List.map_append, hA]
      have hord1 : Ordered [] (A ++ B.map (redirectNode n.name p)) := by
        rw [ordered_append]
        refine ⟨(ordered_append.mp hord).1, ordered_redirect n.name p B _ _ hord2.2.2 (by simp) ?_ ?_⟩
        · intro a ha; exact List.mem_cons_of_mem _ ha
        · intro a ha
          unfold redirect
          by_cases han : a = n.name
          · rw [if_pos han]; simpa using hpA
          · rw [if_neg han]
            rcases List.mem_cons.mp ha with h | h
            · exact absurd h han
            · exact h
      have hBnames : (B.map (redirectNode n.name p)).map Node.name = B.map Node.name := by rw [List.map_map, redirectNode_name]
      have hst1 : ∀ m ∈ B.map (redirectNode n.name p), stoch m.name = true →
          PassesOn S mods m ∧ ReadDirectly (A ++ B.map (redirectNode n.name p)) m.name := by
        intro m hm hsm
        rw [List.mem_map] at hm
        obtain ⟨w, hw, rfl⟩ := hm
        obtain ⟨hp1, u, hu, huniq, hdir, hcount⟩ := hst w (by simp [hw]) hsm
        refine ⟨passesOn_redirect S mods w _ _ hp1, ?_⟩
        have hwn : w.name ≠ n.name := fun hc => hnB (hc ▸ List.mem_map_of_mem hw)
        have hwp : w.name ≠ p := by
          intro hc
          rw [List.map_append, List.nodup_append] at hnd
          exact hnd.2.2 p hpA w.name (by simp only [List.map_cons, List.mem_cons]; right; exact List.mem_map_of_mem hw) hc.symm
        have hAB : A ++ B.map (redirectNode n.name p) = (A ++ B).map (redirectNode n.name p) := by rw [List.map_append, hA]
        have hun : u ≠ n := by
          rintro rfl
          rw [hrefs] at hcount
          have : w.name ∈ [p] := List.count_pos_iff.mp (by omega)
          exact hwp (by simpa using this)
        refine ⟨redirectNode n.name p u, ?_, ?_, ?_, ?_⟩
        · rw [hAB]
          apply List.mem_map_of_mem
          simp only [List.mem_append, List.mem_cons] at hu ⊢
          tauto
        · intro x hx hxr
          rw [hAB, List.mem_map] at hx
          obtain ⟨y, hy, rfl⟩ := hx
          rw [huniq y (by simp only [List.mem_append, List.mem_cons] at hy ⊢; tauto)]
          have h1 := List.count_pos_iff.mpr hxr
          simp only [redirectNode, Arg.refsList_map] at h1
          rw [count_redirect _ _ _ hwn hwp] at h1
          exact List.count_pos_iff.mp h1
        · have := mem_mapList (redirect n.name p) u.args _ hdir
          simp only [Arg.map, redirect, if_neg hwn] at this
          exact this
        · simp only [redirectNode, Arg.refsList_map]
          rw [count_redirect _ _ _ hwn hwp]
          exact hcount
      obtain ⟨g', hrun, hord', hnames, hval, hnone⟩ := ih (B.map (redirectNode n.name p)) (by simpa using hlen) A hord1 hst1
      rw [hBnames] at hrun hnames
      refine ⟨g', ?_, hord', ?_, ?_, ?_⟩
      · have hfind : (A ++ n :: B).find? (fun m => m.name == n.name) = some n := by
          rw [List.find?_append]
          have : A.find? (fun m => m.name == n.name) = none := by
            rw [List.find?_eq_none]
            intro a ha hc
            simp only [beq_iff_eq] at hc
            exact hnA (hc ▸ List.mem_map_of_mem ha)
          rw [this]
          simp
        rw [List.map_cons, removeStochasticFrom, if_pos hs, hfind]
        simp only [Option.bind_some, hg1, hg1']
        exact hrun
      · rw [hnames, List.map_cons, List.filter_cons, hs]; rfl
      · intro env e hx
        obtain ⟨e', hx', he'⟩ := hval env _ (remove_values S mods A B n p rest env e hord hord1 hargs hpass hA hx)
        refine ⟨e', hx', fun m hm => ?_⟩
        rw [he' m hm, Function.update_of_ne]
        rintro rfl
        rw [hnames] at hm
        simp only [List.mem_append, List.mem_filter, hs] at hm
        rcases hm with hm | hm
        · exact hnA hm
        · simp at hm
      · intro env hx
        apply hnone
        rw [Option.eq_none_iff_forall_ne_some]
        intro e he
        rw [remove_values_back S mods A B n p rest env e hord hord1 hargs hpass hA he] at hx
        exact nomatch hx
    · have hf : stoch n.name = false := by simpa using hs
      have e1 : A ++ n :: B = (A ++ [n]) ++ B := by simp
      obtain ⟨g', h1, h2, h3, h4⟩ := ih B hlen (A ++ [n]) (e1 ▸ hord) (by
        intro m hm hsm
        rw [← e1]
        exact hst m (by simp [hm]) hsm)
      refine ⟨g', ?_, h2, ?_, ?_⟩
      · rw [List.map_cons, removeStochasticFrom, if_neg hs, e1]; exact h1
      · rw [h3, List.map_cons, List.filter_cons, hf]; simp
      · rw [e1]; exact h4

end Brevitas.Standardize
