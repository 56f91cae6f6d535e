import Verif.Lemmas.ResidualLoop

/-! # What the alignment of additions and concatenations leaves alone -/

namespace Brevitas.Residual

theorem behind_insert {g : Graph} {start v S b0 : ℕ} (hst : start ≤ g.next) {x a : ℕ} (h : Behind g start x a) :
    Behind (applyRewriter (.quant v) S g (.insert b0)) start (subst b0 g.next x) a := by
  have hnop : (applyRewriter (.quant v) S g (.insert b0)).op g.next = .call (.quant v) := Function.update_self _ _ _
  have hnargs : (applyRewriter (.quant v) S g (.insert b0)).args g.next = [b0] := if_pos rfl
  have hlt : g.next < (applyRewriter (.quant v) S g (.insert b0)).next := Nat.lt_succ_self _
  induction h with
  | refl a =>
    by_cases ha : a = b0
    · rw [show subst b0 g.next a = g.next from if_pos ha]
      exact .quant hst hlt hnop hnargs (ha ▸ .refl _)
    · rw [show subst b0 g.next a = a from if_neg ha]
      exact .refl _
  | @quant x w b a hx hxlt hop hargs h ih =>
    have hxn : x ≠ g.next := by omega
    have h1 : (applyRewriter (.quant v) S g (.insert b0)).op x = .call (.quant w) := by
      rw [← hop]
      exact Function.update_of_ne hxn _ _
    have h2 : (applyRewriter (.quant v) S g (.insert b0)).args x = [subst b0 g.next b] := by
      have : (applyRewriter (.quant v) S g (.insert b0)).args x = (g.args x).map (subst b0 g.next) := if_neg hxn
      rw [this, hargs]
      rfl
    have h3 : Behind (applyRewriter (.quant v) S g (.insert b0)) start x a := .quant hx (Nat.lt_succ_of_lt hxlt) h1 h2 ih
    by_cases ha : x = b0
    · rw [show subst b0 g.next x = g.next from if_pos ha]
      exact .quant hst hlt hnop hnargs (ha ▸ h3)
    · rw [show subst b0 g.next x = x from if_neg ha]
      exact h3

theorem behind_other {g g' : Graph} {start x a : ℕ} (h : Behind g start x a) (hop : g'.op = g.op) (hargs : g'.args = g.args)
    (hnext : g.next ≤ g'.next) : Behind g' start x a := by
  induction h with
  | refl a => exact .refl a
  | quant h1 h2 h3 h4 _ ih => exact .quant h1 (by omega) (by rw [hop]; exact h3) (by rw [hargs]; exact h4) ih

/-- What is needed of the numbers to show what the loop leaves alone. -/
structure OnlyInv (g0 g : Graph) : Prop where
  only : OnlyQuantisers g0 g
  next : g0.next ≤ g.next
  keys : (g.mods.map Prod.fst).Nodup
  objs : ∀ e ∈ g.mods, e.2 < g.next

/-- A rewriter replaces modules by modules of the same kind. -/
def KindOk (objs : ℕ → Obj) : Rewriter → Prop
  | .insert _ => True
  | .share o => (objs o).kind = 1
  | .newAct o _ => (objs o).kind = 2

theorem rewriters_kind (g : Graph) (fuel : ℕ) (same : Bool) (l : List ℕ) : ∀ r ∈ rewriters g fuel same l, KindOk g.objs r := by
  induction fuel generalizing same l with
  | zero => simp [rewriters]
  | succ fuel ih =>
    intro r hr
    rw [rewriters, List.mem_flatMap] at hr
    obtain ⟨b, -, hr⟩ := hr
    unfold rewriteArg at hr
    cases hop : g.op b with
    | call m =>
      rw [hop] at hr
      dsimp only at hr
      cases hobj : g.obj m with
      | keep => rw [hobj] at hr; exact ih _ _ r hr
      | identity tq =>
        rw [hobj] at hr
        obtain rfl : r = .share (g.objId m) := by simpa using hr
        show (g.objs (g.objId m)).kind = 1
        rw [show g.objs (g.objId m) = g.obj m from rfl, hobj]
        rfl
      | act tq fs =>
        rw [hobj] at hr
        cases fs with
        | false =>
          obtain rfl : r = .newAct (g.objId m) same := by simpa using hr
          show (g.objs (g.objId m)).kind = 2
          rw [show g.objs (g.objId m) = g.obj m from rfl, hobj]
          rfl
        | true =>
          obtain rfl : r = .insert b := by simpa using hr
          trivial
      | float =>
        rw [hobj] at hr
        obtain rfl : r = .insert b := by simpa using hr
        trivial
    | look => rw [hop] at hr; exact ih _ _ r hr
    | transpose => rw [hop] at hr; exact ih _ _ r hr
    | cat => rw [hop] at hr; exact ih _ _ r hr
    | raw =>
      rw [hop] at hr
      obtain rfl : r = .insert b := by simpa using hr
      trivial
    | permute =>
      rw [hop] at hr
      obtain rfl : r = .insert b := by simpa using hr
      trivial
    | add =>
      rw [hop] at hr
      obtain rfl : r = .insert b := by simpa using hr
      trivial
    | other =>
      rw [hop] at hr
      obtain rfl : r = .insert b := by simpa using hr
      trivial

/-- A name whose module is replaced gets the new module, others keep theirs. -/
theorem replaceFirst_cases (old new : ℕ) (l : List (Name × ℕ)) (m : Name) (o : ℕ) (h : (m, o) ∈ l) :
    (m, o) ∈ replaceFirst old new l ∨ (o = old ∧ (m, new) ∈ replaceFirst old new l) := by
  induction l with
  | nil => simp at h
  | cons e l ih =>
    unfold replaceFirst
    by_cases he : e.2 = old
    · rw [if_pos he]
      rcases List.mem_cons.mp h with rfl | h
      · exact Or.inr ⟨he, by simp⟩
      · exact Or.inl (List.mem_cons_of_mem _ h)
    · rw [if_neg he]
      rcases List.mem_cons.mp h with rfl | h
      · simp
      · rcases ih h with h1 | ⟨h1, h2⟩
        · exact Or.inl (List.mem_cons_of_mem _ h1)
        · exact Or.inr ⟨h1, List.mem_cons_of_mem _ h2⟩

theorem forall2_map {α β : Type} {R Q : α → β → Prop} (f : α → α) {l : List α} {l' : List β} (h : List.Forall₂ R l l')
    (hf : ∀ a b, R a b → Q (f a) b) : List.Forall₂ Q (l.map f) l' := by
  induction h with
  | nil => exact .nil
  | cons h1 _ ih => exact .cons (hf _ _ h1) ih

theorem onlyInv_step {g0 g : Graph} {v S : ℕ} (I : OnlyInv g0 g) (hS : (g.objs S).kind = 1) (hSlt : S < g.next) (r : Rewriter)
    (hr : KindOk g.objs r) (hrlt : ∀ o, r.old = some o → o < g.next) : OnlyInv g0 (applyRewriter (.quant v) S g r) := by
  have hrepl : ∀ (g' : Graph) (old new : ℕ), g'.mods = replaceFirst old new g.mods → (∀ o < g.next, g'.objs o = g.objs o) →
      (g'.objs new).kind = (g.objs old).kind → ∀ s o, (Name.orig s, o) ∈ g0.mods →
      ∃ o', (Name.orig s, o') ∈ g'.mods ∧ (g'.objs o').kind = (g0.objs o).kind := by
    intro g' old new hm ho hk s o hso
    obtain ⟨o1, h1, h2⟩ := I.only.kind s o hso
    have hlt := I.objs _ h1
    rcases replaceFirst_cases old new _ _ _ h1 with h3 | ⟨h3, h4⟩
    · exact ⟨o1, by rw [hm]; exact h3, by rw [ho o1 hlt]; exact h2⟩
    · exact ⟨new, by rw [hm]; exact h4, by rw [hk, ← h3]; exact h2⟩
  cases r with
  | insert b0 =>
    refine ⟨⟨I.only.adds, ?_, ?_, I.only.kind⟩, Nat.le_succ_of_le I.next, I.keys, fun e he => Nat.lt_succ_of_lt (I.objs e he)⟩
    · intro x hx
      have := I.next
      rw [← I.only.op x hx]
      exact Function.update_of_ne (by omega) _ _
    · intro x hx
      have := I.next
      have h1 : (applyRewriter (.quant v) S g (.insert b0)).args x = (g.args x).map (subst b0 g.next) := if_neg (by omega)
      rw [h1]
      exact forall2_map _ (I.only.args x hx) fun a b h => behind_insert I.next h
  | share old =>
    refine ⟨⟨I.only.adds, I.only.op, ?_, ?_⟩, I.next, ?_, ?_⟩
    · intro x hx
      exact List.Forall₂.imp (fun a b h => behind_other (g := g) (g' := applyRewriter (.quant v) S g (.share old)) h rfl rfl (le_refl _)) (I.only.args x hx)
    · exact hrepl _ old S rfl (fun _ _ => rfl) (by rw [show (g.objs old).kind = 1 from hr]; exact hS)
    · show ((replaceFirst old S g.mods).map Prod.fst).Nodup
      rw [replaceFirst_keys]
      exact I.keys
    · intro e he
      rcases replaceFirst_mem _ _ _ _ he with h1 | ⟨h1, -⟩
      · exact I.objs e h1
      · rw [h1]; exact hSlt
  | newAct old ex =>
    refine ⟨⟨I.only.adds, I.only.op, ?_, ?_⟩, Nat.le_succ_of_le I.next, ?_, ?_⟩
    · intro x hx
      exact List.Forall₂.imp (fun a b h => behind_other (g := g) (g' := applyRewriter (.quant v) S g (.newAct old ex)) h rfl rfl (Nat.le_succ _))
        (I.only.args x hx)
    · refine hrepl _ old g.next rfl (fun o ho => Function.update_of_ne (by omega) _ _) ?_
      rw [show (g.objs old).kind = 2 from hr]
      show (Function.update g.objs g.next _ g.next).kind = 2
      rw [Function.update_self]
      rfl
    · show ((replaceFirst old g.next g.mods).map Prod.fst).Nodup
      rw [replaceFirst_keys]
      exact I.keys
    · intro e he
      rcases replaceFirst_mem _ _ _ _ he with h1 | ⟨h1, -⟩
      · exact Nat.lt_succ_of_lt (I.objs e h1)
      · rw [h1]; exact Nat.lt_succ_self _

theorem onlyInv_foldl {g0 : Graph} {v S : ℕ} (R : List Rewriter) (g : Graph) (I : OnlyInv g0 g) (hS : (g.objs S).kind = 1) (hSlt : S < g.next)
    (hR : ∀ r ∈ R, KindOk g.objs r) (hRlt : ∀ r ∈ R, ∀ o, r.old = some o → o < g.next) :
    OnlyInv g0 (R.foldl (applyRewriter (.quant v) S) g) := by
  induction R generalizing g with
  | nil => exact I
  | cons r R ih =>
    rw [List.foldl_cons]
    have hobjs : ∀ o < g.next, (applyRewriter (.quant v) S g r).objs o = g.objs o := by
      intro o ho
      cases r with
      | insert b => rfl
      | share o => rfl
      | newAct old e => exact Function.update_of_ne (by omega) _ _
    have hnext : g.next ≤ (applyRewriter (.quant v) S g r).next := by
      cases r with
      | insert b => exact Nat.le_succ _
      | share o => exact le_refl _
      | newAct old e => exact Nat.le_succ _
    refine ih _ (onlyInv_step I hS hSlt r (hR r (by simp)) (hRlt r (by simp))) (by rw [hobjs S hSlt]; exact hS) (by omega) ?_ ?_
    · intro r' hr'
      have h1 := hR r' (by simp [hr'])
      have h2 := hRlt r' (by simp [hr'])
      cases r' with
      | insert b => trivial
      | share o => exact (congrArg Obj.kind (hobjs o (h2 o rfl))).trans h1
      | newAct o e => exact (congrArg Obj.kind (hobjs o (h2 o rfl))).trans h1
    · intro r' hr' o ho
      have := hRlt r' (by simp [hr']) o ho
      omega

theorem rewriters_old_lt {g : Graph} (hb : ∀ e ∈ g.mods, e.2 < g.next) (h0 : 0 < g.next) (fuel : ℕ) (same : Bool) (l : List ℕ) :
    ∀ r ∈ rewriters g fuel same l, ∀ o, r.old = some o → o < g.next := by
  induction fuel generalizing same l with
  | zero => simp [rewriters]
  | succ fuel ih =>
    intro r hr
    rw [rewriters, List.mem_flatMap] at hr
    obtain ⟨b, -, hr⟩ := hr
    unfold rewriteArg at hr
    have hins : r ∈ [Rewriter.insert b] → ∀ o, r.old = some o → o < g.next := by
      intro h o ho
      rw [List.mem_singleton.mp h] at ho
      simp [Rewriter.old] at ho
    cases hop : g.op b with
    | call m =>
      rw [hop] at hr
      dsimp only at hr
      cases hobj : g.obj m with
      | keep => rw [hobj] at hr; exact ih _ _ r hr
      | identity tq =>
        rw [hobj] at hr
        obtain rfl : r = .share (g.objId m) := by simpa using hr
        intro o ho
        obtain rfl : g.objId m = o := Option.some.inj ho
        exact objId_lt hb h0 m
      | act tq fs =>
        rw [hobj] at hr
        cases fs with
        | false =>
          obtain rfl : r = .newAct (g.objId m) same := by simpa using hr
          intro o ho
          obtain rfl : g.objId m = o := Option.some.inj ho
          exact objId_lt hb h0 m
        | true => exact hins hr
      | float => rw [hobj] at hr; exact hins hr
    | look => rw [hop] at hr; exact ih _ _ r hr
    | transpose => rw [hop] at hr; exact ih _ _ r hr
    | cat => rw [hop] at hr; exact ih _ _ r hr
    | raw => rw [hop] at hr; exact hins hr
    | permute => rw [hop] at hr; exact hins hr
    | add => rw [hop] at hr; exact hins hr
    | other => rw [hop] at hr; exact hins hr

theorem onlyInv_alignNode {g0 g : Graph} (I : OnlyInv g0 g) (fuel v : ℕ) : OnlyInv g0 (alignNode g fuel v) := by
  have hk1 : ((newQuant g v).mods.map Prod.fst).Nodup := (setName_keys _ _ _ I.keys).1
  have hb1 : ∀ e ∈ (newQuant g v).mods, e.2 < (newQuant g v).next := by
    rintro ⟨m, o⟩ he
    rcases (setName_mem _ _ _ I.keys _ _).mp he with ⟨-, h⟩ | ⟨-, h⟩
    · show o < g.next + 1
      omega
    · exact Nat.lt_succ_of_lt (I.objs _ h)
  have hobjs : ∀ o < g.next, (newQuant g v).objs o = g.objs o := fun o ho => Function.update_of_ne (by omega) _ _
  refine onlyInv_foldl _ _ ?_ ?_ (Nat.lt_succ_self _) (rewriters_kind _ _ _ _) (rewriters_old_lt hb1 (Nat.succ_pos _) _ _ _)
  · refine ⟨⟨I.only.adds, I.only.op, ?_, ?_⟩, Nat.le_succ_of_le I.next, hk1, hb1⟩
    · intro x hx
      exact List.Forall₂.imp (fun a b h => behind_other (g := g) (g' := newQuant g v) h rfl rfl (Nat.le_succ _)) (I.only.args x hx)
    · intro s o hso
      obtain ⟨o1, h1, h2⟩ := I.only.kind s o hso
      refine ⟨o1, (setName_mem _ _ _ I.keys _ _).mpr (Or.inr ⟨by simp, h1⟩), ?_⟩
      rw [hobjs o1 (I.objs _ h1)]
      exact h2
  · show (Function.update g.objs g.next _ g.next).kind = 1
    rw [Function.update_self]
    rfl

theorem onlyInv_loop {g0 : Graph} (fuel n : ℕ) (g g' : Graph) (I : OnlyInv g0 g) (h : residualLoop fuel n g = some g') : OnlyInv g0 g' := by
  induction n generalizing g with
  | zero => simp [residualLoop] at h
  | succ n ih =>
    rw [residualLoop] at h
    cases hf : g.adds.find? fun v => !aligned g fuel v with
    | none =>
      rw [hf] at h
      obtain rfl := Option.some.inj h
      exact I
    | some v =>
      rw [hf] at h
      exact ih _ (onlyInv_alignNode I fuel v) h

end Brevitas.Residual
