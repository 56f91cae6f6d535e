import Verif.Spec.Requantised
import Verif.Lemmas.ResidualWiring

/-! # Steps of the replacement of layers -/

namespace Brevitas.Residual

open Brevitas.Quantize (TensorQuantId)

/-- A name of a new quantiser. -/
def NewName (m : Name) : Prop := ∃ n, m = .quant n ∨ m = .outputQuant n ∨ m = .inputQuant n

/-- What holds of the graph all the time. -/
structure Wf (N : Net) : Prop where
  names : (N.g.mods.map Prod.fst).Nodup
  taken : ∀ e ∈ N.g.mods, NewName e.1 → (N.g.objs e.2).actQuant.isSome
  objs : ∀ e ∈ N.g.mods, e.2 < N.g.next
  nodup : N.nodes.Nodup
  nodes : ∀ x ∈ N.nodes, x < N.g.next
  args : ∀ x ∈ N.nodes, ∀ a ∈ N.g.args x, a ∈ N.nodes
  calls : ∀ x ∈ N.nodes, ∀ m, N.g.op x = .call m → ∃ o, (m, o) ∈ N.g.mods

/-- Module `o'` of `N'` is a quantiser, a module that keeps its input, or a batch norm, as module `o` of `N` is. -/
structure Same (lm : LayerMap) (N : Net) (o : ℕ) (N' : Net) (o' : ℕ) : Prop where
  quant : (N'.g.objs o').actQuant.isSome = (N.g.objs o).actQuant.isSome
  keep : N.g.objs o = .keep → N'.g.objs o' = .keep
  bn : (N.g.objs o).actQuant = none → lm.bn (N.cls o) = true → lm.bn (N'.cls o') = true

/-- `N'` is `N` with more quantisers. -/
structure Refines (lm : LayerMap) (N N' : Net) : Prop where
  nodes : ∀ x ∈ N.nodes, x ∈ N'.nodes
  fresh : ∀ x ∈ N'.nodes, x ∈ N.nodes ∨ IsQuant N'.g x
  op : ∀ x ∈ N.nodes, N'.g.op x = N.g.op x
  args : ∀ x ∈ N.nodes, List.Forall₂ (fun a' a => a' = a ∨ IsQuant N'.g a') (N'.g.args x) (N.g.args x)
  reads : ∀ u ∈ N'.nodes, ∀ b ∈ N.nodes, b ∈ N'.g.args u → (u ∈ N.nodes ∧ b ∈ N.g.args u) ∨ IsQuant N'.g u
  mods : ∀ m o, (m, o) ∈ N.g.mods → ∃ o', (m, o') ∈ N'.g.mods ∧ Same lm N o N' o'

theorem obj_mem {g : Graph} (hk : (g.mods.map Prod.fst).Nodup) {m : Name} {o : ℕ} (h : (m, o) ∈ g.mods) : g.obj m = g.objs o := by
  unfold Graph.obj
  rw [objId_mem hk h]

theorem clsOf_mem {N : Net} (hk : (N.g.mods.map Prod.fst).Nodup) {m : Name} {o : ℕ} (h : (m, o) ∈ N.g.mods) : N.clsOf m = N.cls o := by
  unfold Net.clsOf
  rw [objId_mem hk h]

theorem Refines.refl (lm : LayerMap) (N : Net) : Refines lm N N where
  nodes := fun _ h => h
  fresh := fun _ h => Or.inl h
  op := fun _ _ => rfl
  args := fun _ _ => List.forall₂_same.mpr fun _ _ => Or.inl rfl
  reads := fun _ hu _ _ h => Or.inl ⟨hu, h⟩
  mods := fun _ o h => ⟨o, h, rfl, id, fun _ => id⟩

theorem Refines.isQuant_iff {lm : LayerMap} {N N' : Net} (W : Wf N) (W' : Wf N') (R : Refines lm N N') {u : ℕ} (hu : u ∈ N.nodes) :
    IsQuant N'.g u ↔ IsQuant N.g u := by
  constructor
  · rintro ⟨m, hop, hq⟩
    rw [R.op u hu] at hop
    obtain ⟨o, ho⟩ := W.calls u hu m hop
    obtain ⟨o', ho', hs⟩ := R.mods m o ho
    rw [obj_mem W'.names ho', hs.quant] at hq
    exact ⟨m, hop, by rw [obj_mem W.names ho]; exact hq⟩
  · rintro ⟨m, hop, hq⟩
    obtain ⟨o, ho⟩ := W.calls u hu m hop
    obtain ⟨o', ho', hs⟩ := R.mods m o ho
    rw [obj_mem W.names ho] at hq
    exact ⟨m, by rw [R.op u hu, hop], by rw [obj_mem W'.names ho', hs.quant]; exact hq⟩

theorem forall2_trans {α : Type} {P Q T : α → α → Prop} (h : ∀ a b c, P a b → Q b c → T a c) {l1 l2 l3 : List α}
    (h1 : List.Forall₂ P l1 l2) (h2 : List.Forall₂ Q l2 l3) : List.Forall₂ T l1 l3 := by
  induction h1 generalizing l3 with
  | nil => cases h2; exact .nil
  | cons a _ ih => cases h2 with
    | cons b hb => exact .cons (h _ _ _ a b) (ih hb)

theorem forall2_mono_mem {α : Type} {P Q : α → α → Prop} {l1 l2 : List α} (h1 : List.Forall₂ P l1 l2) (h : ∀ a ∈ l1, ∀ b ∈ l2, P a b → Q a b) :
    List.Forall₂ Q l1 l2 := by
  induction h1 with
  | nil => exact .nil
  | cons a _ ih =>
    exact .cons (h _ (List.mem_cons_self ..) _ (List.mem_cons_self ..) a)
      (ih fun x hx y hy => h x (List.mem_cons_of_mem _ hx) y (List.mem_cons_of_mem _ hy))

theorem Same.trans {lm : LayerMap} {N N' N'' : Net} {o o' o'' : ℕ} (h : Same lm N o N' o') (h' : Same lm N' o' N'' o'') : Same lm N o N'' o'' where
  quant := h'.quant.trans h.quant
  keep := fun h1 => h'.keep (h.keep h1)
  bn := fun h1 h2 => h'.bn (by have := h.quant; rw [h1] at this; simpa using this) (h.bn h1 h2)

theorem Refines.trans {lm : LayerMap} {N N' N'' : Net} (W' : Wf N') (W'' : Wf N'') (R : Refines lm N N') (R' : Refines lm N' N'') :
    Refines lm N N'' where
  nodes := fun x hx => R'.nodes x (R.nodes x hx)
  fresh := fun x hx => by
    rcases R'.fresh x hx with h | h
    · rcases R.fresh x h with h1 | h1
      · exact Or.inl h1
      · exact Or.inr ((R'.isQuant_iff W' W'' h).mpr h1)
    · exact Or.inr h
  op := fun x hx => by rw [R'.op x (R.nodes x hx), R.op x hx]
  args := fun x hx => by
    have h1 : List.Forall₂ (fun a' a => a' ∈ N'.nodes ∧ (a' = a ∨ IsQuant N'.g a')) (N'.g.args x) (N.g.args x) :=
      forall2_mono_mem (R.args x hx) fun a ha b _ h => ⟨W'.args x (R.nodes x hx) a ha, h⟩
    refine forall2_trans (fun a b c hab hbc => ?_) (R'.args x (R.nodes x hx)) h1
    rcases hab with rfl | hab
    · rcases hbc.2 with rfl | h
      · exact Or.inl rfl
      · exact Or.inr ((R'.isQuant_iff W' W'' hbc.1).mpr h)
    · exact Or.inr hab
  reads := fun u hu b hb h => by
    rcases R'.reads u hu b (R.nodes b hb) h with ⟨h1, h2⟩ | h1
    · rcases R.reads u h1 b hb h2 with h3 | h3
      · exact Or.inl h3
      · exact Or.inr ((R'.isQuant_iff W' W'' h1).mpr h3)
    · exact Or.inr h1
  mods := fun m o h => by
    obtain ⟨o', ho', hs⟩ := R.mods m o h
    obtain ⟨o'', ho'', hs'⟩ := R'.mods m o' ho'
    exact ⟨o'', ho'', hs.trans hs'⟩

/-- What is quantised stays so. -/
theorem Refines.quantised {lm : LayerMap} {N N' : Net} (W : Wf N) (W' : Wf N') (R : Refines lm N N') {b : ℕ} (h : Quantised N.g b)
    (hb : b ∈ N.nodes) : Quantised N'.g b := by
  have hargs : ∀ b ∈ N.nodes, (∀ a ∈ N.g.args b, a ∈ N.nodes → Quantised N'.g a) → ∀ a ∈ N'.g.args b, Quantised N'.g a := by
    intro b hb h a ha
    obtain ⟨i, hi, rfl⟩ := List.mem_iff_getElem.mp ha
    have hl := (R.args b hb).length_eq
    have h2 := (List.forall₂_iff_get.mp (R.args b hb)).2 i hi (by omega)
    simp only [List.get_eq_getElem] at h2
    rcases h2 with h2 | h2
    · rw [h2]
      exact h _ (List.getElem_mem _) (W.args b hb _ (List.getElem_mem _))
    · exact .quant h2
  induction h with
  | quant h => exact .quant ((R.isQuant_iff W W' hb).mpr h)
  | @keep b m hop hobj h ih =>
    obtain ⟨o, ho⟩ := W.calls b hb m hop
    obtain ⟨o', ho', hs⟩ := R.mods m o ho
    rw [obj_mem W.names ho] at hobj
    exact .keep (by rw [R.op b hb, hop]) (by rw [obj_mem W'.names ho']; exact hs.keep hobj) (hargs b hb fun a ha han => ih a ha han)
  | @pass b hop h ih => exact .pass (by rw [R.op b hb]; exact hop) (hargs b hb fun a ha han => ih a ha han)

theorem Refines.isBn {lm : LayerMap} {N N' : Net} (W : Wf N) (W' : Wf N') (R : Refines lm N N') {u : ℕ} (hu : u ∈ N.nodes) (h : IsBn lm N u) :
    IsBn lm N' u := by
  obtain ⟨m, hop, hq, hbn⟩ := h
  obtain ⟨o, ho⟩ := W.calls u hu m hop
  obtain ⟨o', ho', hs⟩ := R.mods m o ho
  rw [obj_mem W.names ho] at hq
  rw [clsOf_mem W.names ho] at hbn
  refine ⟨m, by rw [R.op u hu, hop], ?_, by rw [clsOf_mem W'.names ho']; exact hs.bn hq hbn⟩
  rw [obj_mem W'.names ho']
  have := hs.quant
  rw [hq] at this
  simpa using this

/-- What is quantised again stays so. -/
theorem Refines.requantised {lm : LayerMap} {N N' : Net} (W : Wf N) (W' : Wf N') (R : Refines lm N N') {b : ℕ} (h : Requantised lm N b)
    (hb : b ∈ N.nodes) : Requantised lm N' b := by
  induction h with
  | @mk b h hbn ih =>
    refine .mk (fun u hu hr hq => ?_) (fun u hu hr hq => ?_)
    · rcases R.reads u hu b hb hr with ⟨h1, h2⟩ | h1
      · exact R.isBn W W' h1 (h u h1 h2 fun hc => hq ((R.isQuant_iff W W' h1).mpr hc))
      · exact absurd h1 hq
    · rcases R.reads u hu b hb hr with ⟨h1, h2⟩ | h1
      · exact ih u h1 h2 (fun hc => hq ((R.isQuant_iff W W' h1).mpr hc)) h1
      · exact absurd h1 hq

/-! ### One quantiser -/

theorem insertQuant_args (N : Net) (m : Name) (b : ℕ) (ex : List ℕ) {x : ℕ} (hx : x ≠ N.g.next) :
    (insertQuant N m b ex).g.args x = if x ∈ ex then N.g.args x else (N.g.args x).map (subst b N.g.next) := if_neg hx

theorem insertQuant_mods {N : Net} (W : Wf N) (m : Name) (b : ℕ) (ex : List ℕ) (x : Name) (p : ℕ) :
    (x, p) ∈ (insertQuant N m b ex).g.mods ↔ (x = m ∧ p = N.g.next) ∨ (x ≠ m ∧ (x, p) ∈ N.g.mods) := setName_mem _ _ _ W.names _ _

theorem insertQuant_new {N : Net} (W : Wf N) (m : Name) (b : ℕ) (ex : List ℕ) : IsQuant (insertQuant N m b ex).g N.g.next := by
  refine ⟨m, Function.update_self _ _ _, ?_⟩
  have h1 : (m, N.g.next) ∈ (insertQuant N m b ex).g.mods := (insertQuant_mods W m b ex _ _).mpr (Or.inl ⟨rfl, rfl⟩)
  rw [obj_mem (setName_keys _ _ _ W.names).1 h1]
  show (Function.update N.g.objs N.g.next _ N.g.next).actQuant.isSome
  rw [Function.update_self]
  rfl

theorem insertQuant_wf {N : Net} (W : Wf N) {m : Name} {b : ℕ} (ex : List ℕ) (hb : b ∈ N.nodes) : Wf (insertQuant N m b ex) where
  names := (setName_keys _ _ _ W.names).1
  taken := by
    intro e he hn
    show (Function.update N.g.objs N.g.next _ e.2).actQuant.isSome
    rcases (insertQuant_mods W m b ex e.1 e.2).mp he with ⟨_, h⟩ | ⟨_, h⟩
    · rw [h, Function.update_self]; rfl
    · rw [Function.update_of_ne (W.objs _ h).ne]
      exact W.taken _ h hn
  objs := by
    intro e he
    show e.2 < N.g.next + 1
    rcases (insertQuant_mods W m b ex e.1 e.2).mp he with ⟨_, h⟩ | ⟨_, h⟩
    · omega
    · have := W.objs _ h; omega
  nodup := by
    refine List.nodup_append.mpr ⟨W.nodup, by simp, fun a ha b hb hab => ?_⟩
    have hb' : b = N.g.next := by simpa using hb
    exact absurd (W.nodes a ha) (by omega)
  nodes := by
    intro x hx
    show x < N.g.next + 1
    rcases List.mem_append.mp hx with h | h
    · have := W.nodes x h; omega
    · have : x = N.g.next := by simpa using h
      omega
  args := by
    intro x hx a ha
    show a ∈ N.nodes ++ [N.g.next]
    rcases List.mem_append.mp hx with h | h
    · rw [insertQuant_args N m b ex (W.nodes x h).ne] at ha
      split_ifs at ha
      · exact List.mem_append_left _ (W.args x h a ha)
      · obtain ⟨y, hy, rfl⟩ := List.mem_map.mp ha
        unfold subst
        split_ifs
        · simp
        · exact List.mem_append_left _ (W.args x h y hy)
    · have : x = N.g.next := by simpa using h
      subst this
      have : a = b := by simpa [insertQuant] using ha
      exact this ▸ List.mem_append_left _ hb
  calls := by
    intro x hx m' hop
    rcases List.mem_append.mp hx with h | h
    · have hop' : N.g.op x = .call m' := by
        rw [← hop]
        exact (Function.update_of_ne (W.nodes x h).ne _ _).symm
      obtain ⟨o, ho⟩ := W.calls x h m' hop'
      by_cases hm : m' = m
      · exact ⟨N.g.next, (insertQuant_mods W m b ex _ _).mpr (Or.inl ⟨hm, rfl⟩)⟩
      · exact ⟨o, (insertQuant_mods W m b ex _ _).mpr (Or.inr ⟨hm, ho⟩)⟩
    · have : x = N.g.next := by simpa using h
      subst this
      have h2 : (insertQuant N m b ex).g.op N.g.next = .call m := Function.update_self _ _ _
      have : Op.call m = .call m' := h2.symm.trans hop
      simp only [Op.call.injEq] at this
      exact ⟨N.g.next, (insertQuant_mods W m b ex _ _).mpr (Or.inl ⟨this.symm, rfl⟩)⟩

theorem insertQuant_refines (lm : LayerMap) {N : Net} (W : Wf N) {m : Name} (hm : NewName m) (b : ℕ) (ex : List ℕ) :
    Refines lm N (insertQuant N m b ex) where
  nodes := fun x hx => List.mem_append_left _ hx
  fresh := by
    intro x hx
    rcases List.mem_append.mp hx with h | h
    · exact Or.inl h
    · have : x = N.g.next := by simpa using h
      subst this
      exact Or.inr (insertQuant_new W m b ex)
  op := fun x hx => Function.update_of_ne (W.nodes x hx).ne _ _
  args := by
    intro x hx
    rw [insertQuant_args N m b ex (W.nodes x hx).ne]
    split_ifs
    · exact List.forall₂_same.mpr fun _ _ => Or.inl rfl
    · rw [List.forall₂_map_left_iff]
      refine List.forall₂_same.mpr fun y _ => ?_
      unfold subst
      split_ifs
      · exact Or.inr (insertQuant_new W m b ex)
      · exact Or.inl rfl
  reads := by
    intro u hu c hc h
    rcases List.mem_append.mp hu with hu | hu
    · left
      refine ⟨hu, ?_⟩
      rw [insertQuant_args N m b ex (W.nodes u hu).ne] at h
      split_ifs at h
      · exact h
      · obtain ⟨y, hy, hyc⟩ := List.mem_map.mp h
        unfold subst at hyc
        split_ifs at hyc
        · exact absurd (hyc ▸ W.nodes c hc) (lt_irrefl _)
        · exact hyc ▸ hy
    · have : u = N.g.next := by simpa using hu
      subst this
      exact Or.inr (insertQuant_new W m b ex)
  mods := by
    intro m' o h
    by_cases he : m' = m
    · have hq := W.taken _ h (he ▸ hm)
      refine ⟨N.g.next, (insertQuant_mods W m b ex _ _).mpr (Or.inl ⟨he, rfl⟩), ?_, ?_, ?_⟩
      · show (Function.update N.g.objs N.g.next _ N.g.next).actQuant.isSome = _
        rw [Function.update_self]
        exact hq.symm
      · intro hk; rw [hk] at hq; simp [Obj.actQuant] at hq
      · intro hk; rw [hk] at hq; simp at hq
    · have hne := (W.objs _ h).ne
      refine ⟨o, (insertQuant_mods W m b ex _ _).mpr (Or.inr ⟨he, h⟩), ?_, ?_, ?_⟩
      · show (Function.update N.g.objs N.g.next _ o).actQuant.isSome = _
        rw [Function.update_of_ne hne]
      · intro hk
        show Function.update N.g.objs N.g.next _ o = _
        rw [Function.update_of_ne hne]
        exact hk
      · intro _ hk
        show lm.bn (Function.update N.cls N.g.next _ o) = _
        rw [Function.update_of_ne hne]
        exact hk

/-- After a quantiser is inserted after a node, for all users, only that quantiser reads the node. -/
theorem insertQuant_requantised (lm : LayerMap) {N : Net} (W : Wf N) (m : Name) {b : ℕ} (hb : b ∈ N.nodes) :
    Requantised lm (insertQuant N m b []) b := by
  have key : ∀ u ∈ (insertQuant N m b []).nodes, b ∈ (insertQuant N m b []).g.args u → IsQuant (insertQuant N m b []).g u := by
    intro u hu h
    rcases List.mem_append.mp hu with hu | hu
    · rw [insertQuant_args N m b [] (W.nodes u hu).ne, if_neg (by simp)] at h
      obtain ⟨y, hy, hyc⟩ := List.mem_map.mp h
      unfold subst at hyc
      split_ifs at hyc with h1
      · exact absurd (hyc ▸ W.nodes b hb) (lt_irrefl _)
      · exact absurd hyc h1
    · have : u = N.g.next := by simpa using hu
      subst this
      exact insertQuant_new W m b []
  exact .mk (fun u hu h hq => absurd (key u hu h) hq) (fun u hu h hq => absurd (key u hu h) hq)

theorem after_insert {nodes : List ℕ} {lm : LayerMap} {N : Net} (W : Wf N) (hn : ∀ x ∈ nodes, x < N.g.next) {m : Name} (hm : NewName m) {b : ℕ}
    (hb : b ∈ N.nodes) (ex : List ℕ) {x a : ℕ} (h : After nodes N x a) :
    After nodes (insertQuant N m b ex) x a ∧ After nodes (insertQuant N m b ex) (subst b N.g.next x) a := by
  have hnew : ∀ a, After nodes (insertQuant N m b ex) b a → After nodes (insertQuant N m b ex) N.g.next a := fun a h =>
    .quant (fun hc => lt_irrefl _ (hn _ hc)) (List.mem_append_right _ (by simp)) (insertQuant_new W m b ex) (if_pos rfl) h
  have hboth : ∀ x a, After nodes (insertQuant N m b ex) x a → After nodes (insertQuant N m b ex) (subst b N.g.next x) a := by
    intro x a h
    unfold subst
    split_ifs with hx
    · exact hnew a (hx ▸ h)
    · exact h
  have h1 : After nodes (insertQuant N m b ex) x a := by
    induction h with
    | refl a => exact .refl a
    | @quant x c a hnew hx hq hargs h ih =>
      have hq' := ((insertQuant_refines lm W hm b ex).isQuant_iff W (insertQuant_wf W ex hb) hx).mpr hq
      have hargs' := insertQuant_args N m b ex (W.nodes x hx).ne
      rw [hargs] at hargs'
      by_cases he : x ∈ ex
      · rw [if_pos he] at hargs'
        exact .quant hnew (List.mem_append_left _ hx) hq' hargs' ih
      · rw [if_neg he] at hargs'
        exact .quant hnew (List.mem_append_left _ hx) hq' hargs' (hboth _ _ ih)
  exact ⟨h1, hboth x a h1⟩

/-! ### One layer -/

theorem replaceLayer_mods (N : Net) (old : ℕ) (c : String) : (replaceLayer N old c).g.mods = replaceFirst old N.g.next N.g.mods := rfl

theorem replaceLayer_wf {N : Net} (W : Wf N) {old : ℕ} (c : String) (hfloat : N.g.objs old = .float) : Wf (replaceLayer N old c) where
  names := by rw [replaceLayer_mods, replaceFirst_keys]; exact W.names
  taken := by
    intro e he hn
    show (Function.update N.g.objs N.g.next _ e.2).actQuant.isSome
    rcases replaceFirst_mem _ _ _ _ he with h | ⟨_, h⟩
    · rw [Function.update_of_ne (W.objs _ h).ne]
      exact W.taken _ h hn
    · have := W.taken _ h hn
      rw [hfloat] at this
      simp [Obj.actQuant] at this
  objs := by
    intro e he
    show e.2 < N.g.next + 1
    rcases replaceFirst_mem _ _ _ _ he with h | ⟨h, _⟩
    · have := W.objs _ h; omega
    · omega
  nodup := W.nodup
  nodes := fun x hx => Nat.lt_succ_of_lt (W.nodes x hx)
  args := W.args
  calls := by
    intro x hx m hop
    obtain ⟨o, ho⟩ := W.calls x hx m hop
    rcases replaceFirst_cases old N.g.next N.g.mods m o ho with h | ⟨_, h⟩
    · exact ⟨_, h⟩
    · exact ⟨_, h⟩

theorem replaceLayer_refines {lm : LayerMap} {N : Net} (W : Wf N) {old : ℕ} (c : String) (hfloat : N.g.objs old = .float)
    (hbn : lm.bn (N.cls old) = false) : Refines lm N (replaceLayer N old c) where
  nodes := fun _ h => h
  fresh := fun _ h => Or.inl h
  op := fun _ _ => rfl
  args := fun _ _ => List.forall₂_same.mpr fun _ _ => Or.inl rfl
  reads := fun _ hu _ _ h => Or.inl ⟨hu, h⟩
  mods := by
    intro m o h
    have hne := (W.objs _ h).ne
    rcases replaceFirst_cases old N.g.next N.g.mods m o h with h1 | ⟨h0, h1⟩
    · refine ⟨o, h1, ?_, ?_, ?_⟩
      · show (Function.update N.g.objs N.g.next _ o).actQuant.isSome = _
        rw [Function.update_of_ne hne]
      · intro hk
        show Function.update N.g.objs N.g.next _ o = _
        rw [Function.update_of_ne hne]
        exact hk
      · intro _ hk
        show lm.bn (Function.update N.cls N.g.next _ o) = _
        rw [Function.update_of_ne hne]
        exact hk
    · subst h0
      refine ⟨N.g.next, h1, ?_, ?_, ?_⟩
      · show (Function.update N.g.objs N.g.next _ N.g.next).actQuant.isSome = _
        rw [Function.update_self, hfloat]
      · intro hk; rw [hfloat] at hk; simp at hk
      · intro _ hk; rw [hbn] at hk; simp at hk

theorem after_replace {nodes : List ℕ} {lm : LayerMap} {N : Net} (W : Wf N) {old : ℕ} (c : String) (hfloat : N.g.objs old = .float)
    (hbn : lm.bn (N.cls old) = false) {x a : ℕ} (h : After nodes N x a) : After nodes (replaceLayer N old c) x a := by
  induction h with
  | refl a => exact .refl a
  | quant hnew hx hq hargs _ ih =>
    exact .quant hnew hx (((replaceLayer_refines W c hfloat hbn).isQuant_iff W (replaceLayer_wf W c hfloat) hx).mpr hq) hargs ih

/-! ### The check of the inputs -/

/-- What the walk of the check needs of the graph. -/
structure Walkable (g : Graph) (nodes : List ℕ) (rank : ℕ → ℕ) : Prop where
  args : ∀ x ∈ nodes, ∀ a ∈ g.args x, a ∈ nodes
  rank : ∀ x ∈ nodes, ¬ IsQuant g x → ∀ a ∈ g.args x, IsQuant g a ∨ rank a < rank x
  raw : ∀ x ∈ nodes, ¬ IsQuant g x → ∀ a ∈ g.args x, g.op a ≠ .raw

theorem checkArg_mem {g : Graph} {rec : Bool → List ℕ → List (Option TensorQuantId) → List (Option TensorQuantId)}
    (hrec : ∀ s l acc, ∀ t ∈ acc, t ∈ rec s l acc) (s : Bool) (acc : List (Option TensorQuantId)) (b : ℕ) : ∀ t ∈ acc, t ∈ checkArg g rec s acc b := by
  intro t ht
  unfold checkArg
  split
  · exact ht
  · split_ifs
    · exact hrec _ _ _ t ht
    · split
      · split_ifs
        · exact ht
        · exact List.mem_append_left _ ht
      · exact List.mem_append_left _ ht
  · exact hrec _ _ _ t ht
  · exact hrec _ _ _ t ht
  · exact hrec _ _ _ t ht
  · exact hrec _ _ _ t ht
  · exact List.mem_append_left _ ht
  · exact List.mem_append_left _ ht

theorem check_mem (g : Graph) (fuel : ℕ) : ∀ s l acc, ∀ t ∈ acc, t ∈ check g fuel s l acc := by
  induction fuel with
  | zero => intro s l acc t ht; exact ht
  | succ fuel ih =>
    intro s l
    unfold check
    induction l with
    | nil => intro acc t ht; exact ht
    | cons b l ihl =>
      intro acc t ht
      exact ihl _ t (checkArg_mem ih s acc b t ht)

/-- Inputs that pass the check come from quantisers. -/
theorem check_quantised {g : Graph} {nodes : List ℕ} {rank : ℕ → ℕ} (H : Walkable g nodes rank) (fuel : ℕ) : ∀ s l acc,
    none ∉ check g fuel s l acc → (∀ b ∈ l, b ∈ nodes ∧ g.op b ≠ .raw ∧ (IsQuant g b ∨ rank b < fuel)) → ∀ b ∈ l, Quantised g b := by
  induction fuel with
  | zero =>
    intro s l acc _ hl b hb
    rcases (hl b hb).2.2 with h | h
    · exact .quant h
    · omega
  | succ fuel ih =>
    intro s l
    induction l with
    | nil => intro _ _ _ b hb; simp at hb
    | cons b0 l ihl =>
      intro acc hnone hl b hb
      unfold check at hnone ihl
      rw [List.foldl_cons] at hnone
      rcases List.mem_cons.mp hb with rfl | hb
      · have h0 : none ∉ checkArg g (check g fuel) s acc b := fun hc => hnone (by
          have := check_mem g (fuel + 1) s l _ _ hc
          unfold check at this
          exact this)
        obtain ⟨hbn, hraw, hq⟩ := hl b (List.mem_cons_self ..)
        by_cases hq0 : IsQuant g b
        · exact .quant hq0
        have hrank : rank b < fuel + 1 := hq.resolve_left hq0
        have hargs : ∀ a ∈ g.args b, a ∈ nodes ∧ g.op a ≠ .raw ∧ (IsQuant g a ∨ rank a < fuel) := fun a ha =>
          ⟨H.args b hbn a ha, H.raw b hbn hq0 a ha, (H.rank b hbn hq0 a ha).imp_right fun h => by omega⟩
        unfold checkArg at h0
        split at h0
        · next h => exact absurd h hraw
        · next m h =>
          split_ifs at h0 with hk
          · exact .keep h hk (ih _ _ _ h0 hargs)
          · split at h0
            · next tq htq => exact absurd ⟨m, h, by rw [htq]; rfl⟩ hq0
            · simp at h0
        · next h => exact .pass (Or.inl h) (ih _ _ _ h0 hargs)
        · next h => exact .pass (Or.inr (Or.inl h)) (ih _ _ _ h0 hargs)
        · next h => exact .pass (Or.inr (Or.inr (Or.inr h))) (ih _ _ _ h0 hargs)
        · next h => exact .pass (Or.inr (Or.inr (Or.inl h))) (ih _ _ _ h0 hargs)
        · simp at h0
        · simp at h0
      · exact ihl _ hnone (fun b hb => hl b (List.mem_cons_of_mem _ hb)) b hb

theorem Refines.walkable {lm : LayerMap} {N N' : Net} (W : Wf N) (W' : Wf N') (R : Refines lm N N') {rank : ℕ → ℕ} (H : Walkable N.g N.nodes rank) :
    Walkable N'.g N'.nodes rank := by
  have key : ∀ x ∈ N'.nodes, ¬ IsQuant N'.g x → ∀ a ∈ N'.g.args x, IsQuant N'.g a ∨ (x ∈ N.nodes ∧ ¬ IsQuant N.g x ∧ a ∈ N.g.args x) := by
    intro x hx hq a ha
    rcases R.fresh x hx with h | h
    · have hq' : ¬ IsQuant N.g x := fun hc => hq ((R.isQuant_iff W W' h).mpr hc)
      obtain ⟨i, hi, rfl⟩ := List.mem_iff_getElem.mp ha
      have hl := (R.args x h).length_eq
      have h2 := (List.forall₂_iff_get.mp (R.args x h)).2 i hi (by omega)
      simp only [List.get_eq_getElem] at h2
      rcases h2 with h2 | h2
      · exact Or.inr ⟨h, hq', by rw [h2]; exact List.getElem_mem _⟩
      · exact Or.inl h2
    · exact absurd h hq
  refine ⟨W'.args, fun x hx hq a ha => ?_, fun x hx hq a ha => ?_⟩
  · rcases key x hx hq a ha with h | ⟨h1, h2, h3⟩
    · exact Or.inl h
    · exact (H.rank x h1 h2 a h3).imp_left fun h => (R.isQuant_iff W W' (H.args x h1 a h3)).mpr h
  · rcases key x hx hq a ha with ⟨m, h, _⟩ | ⟨h1, h2, h3⟩
    · rw [h]; simp
    · rw [R.op a (H.args x h1 a h3)]
      exact H.raw x h1 h2 a h3

/-! ### The quantisers after the outputs -/

theorem mem_users {N : Net} {b u : ℕ} : u ∈ N.users b ↔ u ∈ N.nodes ∧ b ∈ N.g.args u := by
  unfold Net.users
  rw [List.mem_filter, decide_eq_true_eq]

theorem needsQuant_false {N : Net} {lm : LayerMap} {u : ℕ} (h : needsQuant N lm u = false) (hq : ¬ IsQuant N.g u) : IsBn lm N u ∧ isBn N lm u = true := by
  unfold needsQuant at h
  unfold isBn
  split at h
  · next m hop =>
    have h0 : (N.g.obj m).actQuant = none := by
      by_contra hc
      exact hq ⟨m, hop, Option.isSome_iff_ne_none.mpr hc⟩
    rw [h0] at h
    simp only [Option.isSome_none, Bool.not_false, Bool.true_and, Bool.not_eq_false'] at h
    exact ⟨⟨m, hop, h0, h⟩, by simp [h0, h]⟩
  · simp at h

theorem outputQuants_mem (N : Net) (lm : LayerMap) (fuel : ℕ) : ∀ n ∈ N.nodes, ∀ b ∈ outputQuants N lm fuel n, b ∈ N.nodes := by
  induction fuel with
  | zero => intro n _ b hb; simp [outputQuants] at hb
  | succ fuel ih =>
    intro n hn b hb
    unfold outputQuants at hb
    rcases List.mem_append.mp hb with h | h
    · obtain ⟨u, hu, h⟩ := List.mem_flatMap.mp h
      exact ih u (mem_users.mp (List.mem_filter.mp hu).1).1 b h
    · split_ifs at h
      · have : b = n := by simpa using h
        exact this ▸ hn
      · simp at h

/-- The insertions one after the other. -/
theorem insertAll_refines (lm : LayerMap) {nm : ℕ → Name} (hnm : ∀ b, NewName (nm b)) (l : List ℕ) : ∀ N : Net, Wf N → (∀ b ∈ l, b ∈ N.nodes) →
    Wf (l.foldl (fun N' b => insertQuant N' (nm b) b []) N) ∧ Refines lm N (l.foldl (fun N' b => insertQuant N' (nm b) b []) N) ∧
      ∀ b ∈ l, Requantised lm (l.foldl (fun N' b => insertQuant N' (nm b) b []) N) b := by
  induction l with
  | nil => intro N W _; exact ⟨W, Refines.refl lm N, fun b hb => by simp at hb⟩
  | cons b l ih =>
    intro N W hl
    have hb := hl b (List.mem_cons_self ..)
    have hm := hnm b
    have W1 : Wf (insertQuant N (nm b) b []) := insertQuant_wf W [] hb
    have R1 := insertQuant_refines lm W hm b []
    obtain ⟨W2, R2, h2⟩ := ih (insertQuant N (nm b) b []) W1 fun c hc => R1.nodes c (hl c (List.mem_cons_of_mem _ hc))
    refine ⟨W2, R1.trans W1 W2 R2, fun c hc => ?_⟩
    rcases List.mem_cons.mp hc with rfl | hc
    · exact R2.requantised W1 W2 (insertQuant_requantised lm W _ hb) (R1.nodes _ hb)
    · exact h2 c hc

/-- A node that is not among them is read by the same nodes as before. -/
theorem insertAll_reads {nm : ℕ → Name} (hnm : ∀ b, NewName (nm b)) (l : List ℕ) : ∀ N : Net, Wf N → (∀ b ∈ l, b ∈ N.nodes) → ∀ n ∈ N.nodes, n ∉ l →
    ∀ u ∈ (l.foldl (fun N' b => insertQuant N' (nm b) b []) N).nodes,
      n ∈ (l.foldl (fun N' b => insertQuant N' (nm b) b []) N).g.args u → u ∈ N.nodes ∧ n ∈ N.g.args u := by
  induction l with
  | nil => intro N _ _ n _ _ u hu h; exact ⟨hu, h⟩
  | cons b l ih =>
    intro N W hl n hn hnl u hu h
    have hb := hl b (List.mem_cons_self ..)
    have hm := hnm b
    have R1 := insertQuant_refines ⟨fun _ => false, fun _ => none, fun _ => false⟩ W hm b []
    have hnb : n ≠ b := fun hc => hnl (hc ▸ List.mem_cons_self ..)
    obtain ⟨h1, h2⟩ := ih (insertQuant N (nm b) b []) (insertQuant_wf W [] hb)
      (fun c hc => R1.nodes c (hl c (List.mem_cons_of_mem _ hc))) n (R1.nodes n hn) (fun hc => hnl (List.mem_cons_of_mem _ hc)) u hu h
    rcases List.mem_append.mp h1 with hu1 | hu1
    · refine ⟨hu1, ?_⟩
      rw [insertQuant_args N _ b [] (W.nodes u hu1).ne, if_neg (by simp)] at h2
      obtain ⟨y, hy, hyc⟩ := List.mem_map.mp h2
      unfold subst at hyc
      split_ifs at hyc
      · exact absurd (hyc ▸ W.nodes n hn) (lt_irrefl _)
      · exact hyc ▸ hy
    · have : u = N.g.next := by simpa using hu1
      subst this
      have : n = b := by simpa [insertQuant] using h2
      exact absurd this hnb

theorem newName_output (b : ℕ) : NewName (.outputQuant b) := ⟨b, Or.inr (Or.inl rfl)⟩

/-- The output of a layer is quantised again. -/
theorem outputQuants_requantised {N : Net} (W : Wf N) (lm : LayerMap) {rank : ℕ → ℕ} (H : Walkable N.g N.nodes rank) (depth : ℕ)
    (hdepth : ∀ x ∈ N.nodes, IsQuant N.g x ∨ rank x < depth) (l : List ℕ) (hl : ∀ b ∈ l, b ∈ N.nodes) (fuel : ℕ) :
    ∀ n ∈ N.nodes, ¬ IsQuant N.g n → depth ≤ fuel + rank n → (∀ b ∈ outputQuants N lm fuel n, b ∈ l) →
      Requantised lm (l.foldl (fun N' b => insertQuant N' (.outputQuant b) b []) N) n := by
  obtain ⟨W', R, hq⟩ := insertAll_refines lm newName_output l N W hl
  induction fuel with
  | zero =>
    intro n hn hnq hr _
    have := (hdepth n hn).resolve_left hnq
    omega
  | succ fuel ih =>
    intro n hn hnq hr hsub
    by_cases hnl : n ∈ l
    · exact hq n hnl
    unfold outputQuants at hsub
    have hany : (N.users n).any (needsQuant N lm) = false := by
      by_contra hc
      rw [Bool.not_eq_false] at hc
      exact hnl (hsub n (List.mem_append_right _ (by rw [if_pos hc]; simp)))
    rw [List.any_eq_false] at hany
    have hu' : ∀ u ∈ (l.foldl (fun N' b => insertQuant N' (.outputQuant b) b []) N).nodes,
        n ∈ (l.foldl (fun N' b => insertQuant N' (.outputQuant b) b []) N).g.args u →
        ¬ IsQuant (l.foldl (fun N' b => insertQuant N' (.outputQuant b) b []) N).g u →
        u ∈ N.nodes ∧ n ∈ N.g.args u ∧ ¬ IsQuant N.g u ∧ IsBn lm N u ∧ isBn N lm u = true := by
      intro u hu h huq
      obtain ⟨h1, h2⟩ := insertAll_reads newName_output l N W hl n hn hnl u hu h
      have h3 : ¬ IsQuant N.g u := fun hc => huq ((R.isQuant_iff W W' h1).mpr hc)
      have h4 := needsQuant_false (by simpa using hany u (mem_users.mpr ⟨h1, h2⟩)) h3
      exact ⟨h1, h2, h3, h4⟩
    refine .mk (fun u hu h huq => ?_) (fun u hu h huq => ?_)
    · obtain ⟨h1, _, _, h4, _⟩ := hu' u hu h huq
      exact R.isBn W W' h1 h4
    · obtain ⟨h1, h2, h3, _, h5⟩ := hu' u hu h huq
      have hlt := (H.rank u h1 h3 n h2).resolve_left hnq
      refine ih u h1 h3 (by omega) fun b hb => hsub b (List.mem_append_left _ (List.mem_flatMap.mpr ⟨u, ?_, hb⟩))
      exact List.mem_filter.mpr ⟨mem_users.mpr ⟨h1, h2⟩, h5⟩

end Brevitas.Residual
