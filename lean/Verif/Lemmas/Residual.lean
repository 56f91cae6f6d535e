import Verif.Model.Residual
import Mathlib.Data.List.Nodup

/-! # Facts about the alignment of additions and concatenations -/

namespace Brevitas.Residual

open Brevitas.Quantize (TensorQuantId tensorQuantInList)

/-! ### Names -/

theorem mem_find {mods : List (Name × ℕ)} (hk : (mods.map Prod.fst).Nodup) {m : Name} {o : ℕ} (h : (m, o) ∈ mods) :
    (mods.find? fun e => e.1 == m) = some (m, o) := by
  induction mods with
  | nil => simp at h
  | cons e l ih =>
    rw [List.map_cons, List.nodup_cons] at hk
    rw [List.find?_cons]
    rcases List.mem_cons.mp h with rfl | h
    · simp
    · have : e.1 ≠ m := by
        rintro rfl
        exact hk.1 (List.mem_map.mpr ⟨_, h, rfl⟩)
      rw [show (e.1 == m) = false by simpa using this]
      exact ih hk.2 h

theorem objId_mem {g : Graph} (hk : (g.mods.map Prod.fst).Nodup) {m : Name} {o : ℕ} (h : (m, o) ∈ g.mods) : g.objId m = o := by
  unfold Graph.objId
  rw [mem_find hk h]
  rfl

theorem setName_keys (m : Name) (o : ℕ) (l : List (Name × ℕ)) (h : (l.map Prod.fst).Nodup) :
    ((setName m o l).map Prod.fst).Nodup ∧ ∀ x, x ∈ (setName m o l).map Prod.fst → x = m ∨ x ∈ l.map Prod.fst := by
  induction l with
  | nil => simp [setName]
  | cons e l ih =>
    rw [List.map_cons, List.nodup_cons] at h
    unfold setName
    by_cases he : e.1 = m
    · rw [if_pos he]
      subst he
      exact ⟨by simpa using h, fun x hx => by simpa using hx⟩
    · rw [if_neg he, List.map_cons, List.nodup_cons]
      refine ⟨⟨fun hx => ?_, (ih h.2).1⟩, fun x hx => ?_⟩
      · rcases (ih h.2).2 _ hx with h1 | h1
        · exact he h1
        · exact h.1 h1
      · rcases List.mem_cons.mp hx with rfl | hx
        · simp
        · rcases (ih h.2).2 _ hx with h1 | h1
          · exact Or.inl h1
          · right; simp only [List.map_cons, List.mem_cons]; exact Or.inr h1

theorem setName_mem (m : Name) (o : ℕ) (l : List (Name × ℕ)) (h : (l.map Prod.fst).Nodup) (x : Name) (p : ℕ) :
    (x, p) ∈ setName m o l ↔ (x = m ∧ p = o) ∨ (x ≠ m ∧ (x, p) ∈ l) := by
  induction l with
  | nil => simp [setName]
  | cons e l ih =>
    rw [List.map_cons, List.nodup_cons] at h
    unfold setName
    by_cases he : e.1 = m
    · rw [if_pos he, List.mem_cons, List.mem_cons]
      constructor
      · rintro (h1 | h1)
        · exact Or.inl (by simpa using h1)
        · refine Or.inr ⟨?_, Or.inr h1⟩
          rintro rfl
          exact h.1 (he ▸ List.mem_map.mpr ⟨_, h1, rfl⟩)
      · rintro (⟨rfl, rfl⟩ | ⟨h1, h2 | h2⟩)
        · exact Or.inl rfl
        · subst h2; exact absurd he h1
        · exact Or.inr h2
    · rw [if_neg he, List.mem_cons, List.mem_cons, ih h.2]
      constructor
      · rintro (h1 | h1 | h1)
        · subst h1; exact Or.inr ⟨he, Or.inl rfl⟩
        · exact Or.inl h1
        · exact Or.inr ⟨h1.1, Or.inr h1.2⟩
      · rintro (h1 | ⟨h1, h2 | h2⟩)
        · exact Or.inr (Or.inl h1)
        · exact Or.inl h2
        · exact Or.inr (Or.inr ⟨h1, h2⟩)

theorem replaceFirst_keys (old new : ℕ) (l : List (Name × ℕ)) : (replaceFirst old new l).map Prod.fst = l.map Prod.fst := by
  induction l with
  | nil => rfl
  | cons e l ih =>
    unfold replaceFirst
    by_cases he : e.2 = old
    · rw [if_pos he]; rfl
    · rw [if_neg he, List.map_cons, ih]; rfl

theorem replaceFirst_mem (old new : ℕ) (l : List (Name × ℕ)) (x : Name × ℕ) (h : x ∈ replaceFirst old new l) :
    x ∈ l ∨ (x.2 = new ∧ (x.1, old) ∈ l) := by
  induction l with
  | nil => simp [replaceFirst] at h
  | cons e l ih =>
    unfold replaceFirst at h
    by_cases he : e.2 = old
    · rw [if_pos he] at h
      rcases List.mem_cons.mp h with rfl | h
      · exact Or.inr ⟨rfl, by subst he; simp⟩
      · exact Or.inl (List.mem_cons_of_mem _ h)
    · rw [if_neg he] at h
      rcases List.mem_cons.mp h with rfl | h
      · simp
      · rcases ih h with h | h
        · exact Or.inl (List.mem_cons_of_mem _ h)
        · exact Or.inr ⟨h.1, List.mem_cons_of_mem _ h.2⟩

theorem replaceFirst_keep (old new : ℕ) (l : List (Name × ℕ)) (x : Name × ℕ) (h : x ∈ l) (hx : x.2 ≠ old) : x ∈ replaceFirst old new l := by
  induction l with
  | nil => simp at h
  | cons e l ih =>
    unfold replaceFirst
    by_cases he : e.2 = old
    · rw [if_pos he]
      rcases List.mem_cons.mp h with rfl | h
      · exact absurd he hx
      · exact List.mem_cons_of_mem _ h
    · rw [if_neg he]
      rcases List.mem_cons.mp h with rfl | h
      · simp
      · exact List.mem_cons_of_mem _ (ih h)

/-- A module with one name is replaced under it. -/
theorem replaceFirst_unique (old new : ℕ) (l : List (Name × ℕ)) (m : Name) (h : (m, old) ∈ l) (hu : ∀ x, (x, old) ∈ l → x = m) :
    (m, new) ∈ replaceFirst old new l := by
  induction l with
  | nil => simp at h
  | cons e l ih =>
    unfold replaceFirst
    by_cases he : e.2 = old
    · rw [if_pos he]
      have : e.1 = m := hu e.1 (by subst he; simp)
      simp [this]
    · rw [if_neg he]
      refine List.mem_cons_of_mem _ (ih ?_ fun x hx => hu x (List.mem_cons_of_mem _ hx))
      rcases List.mem_cons.mp h with h | h
      · exact absurd (by rw [← h]) he
      · exact h

/-! ### Walking back from an addition -/

/-- A node that both `are_inputs_quantized_and_aligned` and a reader of the graph look through. -/
def Inner (g : Graph) (M : Name → Prop) (b : ℕ) : Prop :=
  g.op b = .look ∨ g.op b = .permute ∨ ∃ m, g.op b = .call m ∧ M m ∧ g.obj m = .keep

/-- Going back from node `b` through inner nodes, within the nodes `V`, one comes to `leaf` nodes, in at most `fuel` steps. -/
def Walk (g : Graph) (V : ℕ → Prop) (M : Name → Prop) (leaf : ℕ → Prop) : ℕ → ℕ → Prop
  | 0, _ => False
  | fuel + 1, b => V b ∧ (leaf b ∨ (Inner g M b ∧ ∀ a ∈ g.args b, Walk g V M leaf fuel a))

theorem Walk.mono {g : Graph} {V V' : ℕ → Prop} {M M' : Name → Prop} {leaf leaf' : ℕ → Prop} (hV : ∀ b, V b → V' b) (hM : ∀ m, M m → M' m)
    (hl : ∀ b, leaf b → leaf' b) {fuel b : ℕ} (h : Walk g V M leaf fuel b) : Walk g V' M' leaf' fuel b := by
  induction fuel generalizing b with
  | zero => exact h
  | succ fuel ih =>
    obtain ⟨h1, h2⟩ := h
    refine ⟨hV _ h1, h2.imp (hl b) ?_⟩
    rintro ⟨h3, h4⟩
    refine ⟨?_, fun a ha => ih (h4 a ha)⟩
    rcases h3 with h3 | h3 | ⟨m, h3, h5, h6⟩
    · exact Or.inl h3
    · exact Or.inr (Or.inl h3)
    · exact Or.inr (Or.inr ⟨m, h3, hM _ h5, h6⟩)

/-- Quantised, with the `tensor_quant` of `S` or (if `¬ same`) its scale. -/
def Fits (S : ℕ) (same : Bool) (tq : TensorQuantId) : Prop := if same then tq = ⟨S, S, S⟩ else tq.scaling = S ∧ tq.intScaling = S

/-- A node that calls a quantiser that fits. -/
def GoodLeaf (g : Graph) (M : Name → Prop) (S : ℕ) (same : Bool) (b : ℕ) : Prop :=
  ∃ m tq, g.op b = .call m ∧ M m ∧ (g.obj m).actQuant = some tq ∧ Fits S same tq

/-- A node that is quantised, or can be. -/
def ReadyLeaf (g : Graph) (M : Name → Prop) (b : ℕ) : Prop :=
  g.op b = .other ∨ ∃ m o, g.op b = .call m ∧ M m ∧ (m, o) ∈ g.mods ∧ g.objs o ≠ .keep ∧ ∀ m', (m', o) ∈ g.mods → m' = m

/-- The module that a rewriter replaces. -/
def Rewriter.old : Rewriter → Option ℕ
  | .insert _ => none
  | .share old => some old
  | .newAct old _ => some old

/-- A node that is quantised, or will be by one of the rewriters. -/
def CoverLeaf (g : Graph) (M : Name → Prop) (S : ℕ) (same : Bool) (R : List Rewriter) (b : ℕ) : Prop :=
  GoodLeaf g M S same b ∨ .insert b ∈ R ∨
    ∃ m o r, g.op b = .call m ∧ M m ∧ (m, o) ∈ g.mods ∧ (∀ m', (m', o) ∈ g.mods → m' = m) ∧ r ∈ R ∧ r.old = some o

theorem tensorQuantInList_fits {S : ℕ} {same : Bool} {tq : TensorQuantId} (h : Fits S same tq) {acc : List (Option TensorQuantId)}
    (hacc : ∀ x ∈ acc, ∃ t, x = some t ∧ Fits S same t) (hne : acc ≠ []) : tensorQuantInList tq acc same = true := by
  cases acc with
  | nil => exact absurd rfl hne
  | cons x acc =>
    obtain ⟨t, rfl, ht⟩ := hacc x (by simp)
    unfold tensorQuantInList
    rw [List.any_cons]
    unfold Fits at h ht
    cases same with
    | true =>
      simp only [if_true] at h ht
      simp [h, ht]
    | false =>
      simp only [Bool.false_eq_true, if_false] at h ht
      simp [h, ht]

/-- Inputs that lead to fitting quantisers pass the check. -/
theorem check_good {g : Graph} {V : ℕ → Prop} {M : Name → Prop} {S : ℕ} {same : Bool} (fuel : ℕ) (l : List ℕ)
    (hl : ∀ b ∈ l, Walk g V M (GoodLeaf g M S same) fuel b) (acc : List (Option TensorQuantId))
    (hacc : ∀ x ∈ acc, ∃ t, x = some t ∧ Fits S same t) (hlen : acc.length ≤ 1) :
    (∀ x ∈ check g fuel same l acc, ∃ t, x = some t ∧ Fits S same t) ∧ (check g fuel same l acc).length ≤ 1 := by
  induction fuel generalizing l acc with
  | zero => exact ⟨hacc, hlen⟩
  | succ fuel ih =>
    rw [check]
    induction l generalizing acc with
    | nil => exact ⟨hacc, hlen⟩
    | cons b l ihl =>
      rw [List.foldl_cons]
      have step : (∀ x ∈ checkArg g (check g fuel) same acc b, ∃ t, x = some t ∧ Fits S same t) ∧
          (checkArg g (check g fuel) same acc b).length ≤ 1 := by
        obtain ⟨-, h2⟩ := hl b (by simp)
        unfold checkArg
        rcases h2 with ⟨m, tq, h3, -, h4, h5⟩ | ⟨h3, h4⟩
        · rw [h3]
          dsimp only
          have hk : g.obj m ≠ .keep := by
            intro hk; rw [hk] at h4; simp [Obj.actQuant] at h4
          rw [if_neg hk, h4]
          dsimp only
          by_cases hne : acc = []
          · subst hne
            have : tensorQuantInList tq [] same = false := rfl
            rw [this]
            simp only [Bool.false_eq_true, if_false, List.nil_append]
            exact ⟨fun x hx => ⟨tq, by simpa using hx, h5⟩, by simp⟩
          · rw [if_pos (tensorQuantInList_fits h5 hacc hne)]
            exact ⟨hacc, hlen⟩
        · have key := ih (g.args b) h4 acc hacc hlen
          rcases h3 with h3 | h3 | ⟨m, h3, -, h5⟩
          · rw [h3]; exact key
          · rw [h3]; exact key
          · rw [h3]; dsimp only; rw [if_pos h5]; exact key
      exact ihl (fun b' hb' => hl b' (by simp [hb'])) _ step.1 step.2

theorem aligned_good {g : Graph} {V : ℕ → Prop} {M : Name → Prop} {S fuel v : ℕ}
    (hl : ∀ b ∈ g.args v, Walk g V M (GoodLeaf g M S (g.isCat v)) fuel b) : aligned g fuel v = true := by
  obtain ⟨h1, h2⟩ := check_good fuel (g.args v) hl [] (by simp) (by simp)
  unfold aligned
  simp only [Bool.and_eq_true, Bool.not_eq_true', decide_eq_true_eq]
  refine ⟨?_, h2⟩
  rw [List.contains_eq_mem, decide_eq_false_iff_not]
  intro h3
  obtain ⟨t, h4, -⟩ := h1 _ h3
  simp at h4

/-- The rewriters cover what is ready. -/
theorem cover_rewriters {g : Graph} {V : ℕ → Prop} {M : Name → Prop} {S : ℕ} {same : Bool} (hk : (g.mods.map Prod.fst).Nodup) (fuel b : ℕ)
    (h : Walk g V M (ReadyLeaf g M) fuel b) (R : List Rewriter) (hR : ∀ r ∈ rewriters g fuel same [b], r ∈ R) :
    Walk g V M (CoverLeaf g M S same R) fuel b := by
  induction fuel generalizing b with
  | zero => exact h
  | succ fuel ih =>
    obtain ⟨h1, h2⟩ := h
    refine ⟨h1, ?_⟩
    have hR' : ∀ r ∈ rewriteArg g (rewriters g fuel) same b, r ∈ R := by
      intro r hr
      apply hR
      rw [rewriters]
      simpa using hr
    rcases h2 with (h2 | ⟨m, o, h2, hM, h3, h4, h5⟩) | ⟨h2, h3⟩
    · refine Or.inl (Or.inr (Or.inl (hR' _ ?_)))
      unfold rewriteArg
      rw [h2]
      simp
    · have ho : g.objId m = o := objId_mem hk h3
      have hob : g.obj m = g.objs o := by unfold Graph.obj; rw [ho]
      unfold rewriteArg at hR'
      rw [h2] at hR'
      dsimp only at hR'
      rw [hob, ho] at hR'
      cases hcase : g.objs o with
      | keep => exact absurd hcase h4
      | identity tq =>
        rw [hcase] at hR'
        exact Or.inl (Or.inr (Or.inr ⟨m, o, .share o, h2, hM, h3, h5, hR' _ (by simp), rfl⟩))
      | act tq fs =>
        rw [hcase] at hR'
        cases fs with
        | false => exact Or.inl (Or.inr (Or.inr ⟨m, o, .newAct o same, h2, hM, h3, h5, hR' _ (by simp), rfl⟩))
        | true => exact Or.inl (Or.inr (Or.inl (hR' _ (by simp))))
      | float =>
        rw [hcase] at hR'
        exact Or.inl (Or.inr (Or.inl (hR' _ (by simp))))
    · have key : (∀ r ∈ rewriters g fuel same (g.args b), r ∈ R) →
          CoverLeaf g M S same R b ∨ (Inner g M b ∧ ∀ a ∈ g.args b, Walk g V M (CoverLeaf g M S same R) fuel a) := by
        intro hrec
        refine Or.inr ⟨h2, fun a ha => ih a (h3 a ha) fun r hr => hrec r ?_⟩
        cases fuel with
        | zero => simp [rewriters] at hr
        | succ fuel =>
          rw [rewriters, List.mem_flatMap] at hr ⊢
          obtain ⟨c, hc, hr⟩ := hr
          rw [List.mem_singleton] at hc
          subst hc
          exact ⟨c, ha, hr⟩
      rcases h2 with h4 | h4 | ⟨m, h4, h5, h6⟩
      · unfold rewriteArg at hR'
        rw [h4] at hR'
        exact key hR'
      · refine Or.inl (Or.inr (Or.inl (hR' _ ?_)))
        unfold rewriteArg
        rw [h4]
        simp
      · unfold rewriteArg at hR'
        rw [h4] at hR'
        dsimp only at hR'
        rw [h6] at hR'
        exact key hR'

/-- What the rewriters of a ready node mention. -/
theorem rewriters_mem {g : Graph} {V : ℕ → Prop} {M : Name → Prop} {same : Bool} (hk : (g.mods.map Prod.fst).Nodup) (fuel : ℕ) (l : List ℕ)
    (h : ∀ b ∈ l, Walk g V M (ReadyLeaf g M) fuel b) (r : Rewriter) (hr : r ∈ rewriters g fuel same l) :
    (∃ b, r = .insert b ∧ V b) ∨ ∃ m o, (r = .share o ∨ r = .newAct o same) ∧ M m ∧ (m, o) ∈ g.mods ∧ g.objs o ≠ .keep ∧
      ∀ m', (m', o) ∈ g.mods → m' = m := by
  induction fuel generalizing l with
  | zero => simp [rewriters] at hr
  | succ fuel ih =>
    rw [rewriters, List.mem_flatMap] at hr
    obtain ⟨b, hb, hr⟩ := hr
    obtain ⟨h1, h2⟩ := h b hb
    unfold rewriteArg at hr
    rcases h2 with (h2 | ⟨m, o, h2, hM, h3, h4, h5⟩) | ⟨h2, h3⟩
    · rw [h2] at hr
      exact Or.inl ⟨b, by simpa using hr, h1⟩
    · have ho : g.objId m = o := objId_mem hk h3
      have hob : g.obj m = g.objs o := by unfold Graph.obj; rw [ho]
      rw [h2] at hr
      dsimp only at hr
      rw [hob, ho] at hr
      cases hcase : g.objs o with
      | keep => exact absurd hcase h4
      | identity tq =>
        rw [hcase] at hr
        exact Or.inr ⟨m, o, Or.inl (by simpa using hr), hM, h3, h4, h5⟩
      | act tq fs =>
        rw [hcase] at hr
        cases fs with
        | false => exact Or.inr ⟨m, o, Or.inr (by simpa using hr), hM, h3, h4, h5⟩
        | true => exact Or.inl ⟨b, by simpa using hr, h1⟩
      | float =>
        rw [hcase] at hr
        exact Or.inl ⟨b, by simpa using hr, h1⟩
    · rcases h2 with h4 | h4 | ⟨m, h4, h5, h6⟩
      · rw [h4] at hr
        exact ih _ h3 hr
      · rw [h4] at hr
        exact Or.inl ⟨b, by simpa using hr, h1⟩
      · rw [h4] at hr
        dsimp only at hr
        rw [h6] at hr
        exact ih _ h3 hr

/-! ### Applying the rewriters -/

/-- What holds while the rewriters of `v` are applied. -/
structure Applying (g : Graph) (V : ℕ → Prop) (M : Name → Prop) (v S : ℕ) (same : Bool) (R : List Rewriter) (fuel : ℕ) : Prop where
  keys : (g.mods.map Prod.fst).Nodup
  bound : ∀ e ∈ g.mods, e.2 < g.next
  nodes : ∀ b, V b → b < g.next
  name : (Name.quant v, S) ∈ g.mods
  quant : g.objs S = .identity ⟨S, S, S⟩
  vlt : v < g.next
  mq : M (.quant v)
  olds : ∀ r ∈ R, ∀ o, r.old = some o → o ≠ S ∧ o < g.next ∧ g.objs o ≠ .keep
  exacts : ∀ o e, Rewriter.newAct o e ∈ R → e = same
  walk : ∀ b ∈ g.args v, Walk g V M (CoverLeaf g M S same R) fuel b

theorem applying_insert {g : Graph} {V : ℕ → Prop} {M : Name → Prop} {v S : ℕ} {same : Bool} {R : List Rewriter} {fuel b0 : ℕ}
    (A : Applying g V M v S same (.insert b0 :: R) fuel) :
    Applying (applyRewriter (.quant v) S g (.insert b0)) (fun b => V b ∨ b = g.next) M v S same R fuel := by
  set g' := applyRewriter (.quant v) S g (.insert b0) with hg'
  have hSlt : S < g.next := A.bound _ A.name
  have hop : ∀ b, b < g.next → g'.op b = g.op b := fun b hb => Function.update_of_ne (by omega) _ _
  have hargs : ∀ b, b < g.next → g'.args b = (g.args b).map (subst b0 g.next) := fun b hb => if_neg (by omega)
  have hobj : ∀ m, g'.obj m = g.obj m := fun _ => rfl
  have hobjId : g.objId (.quant v) = S := objId_mem A.keys A.name
  have key : ∀ f b, Walk g V M (CoverLeaf g M S same (.insert b0 :: R)) f b →
      Walk g' (fun b => V b ∨ b = g.next) M (CoverLeaf g' M S same R) f (subst b0 g.next b) := by
    intro f
    induction f with
    | zero => intro b h; exact h
    | succ f ih =>
      rintro b ⟨h1, h2⟩
      have hb := A.nodes b h1
      by_cases hb0 : b = b0
      · rw [show subst b0 g.next b = g.next from if_pos hb0]
        refine ⟨Or.inr rfl, Or.inl (Or.inl ⟨.quant v, ⟨S, S, S⟩, ?_, A.mq, ?_, ?_⟩)⟩
        · exact Function.update_self _ _ _
        · rw [hobj]
          unfold Graph.obj
          rw [hobjId, A.quant]
          rfl
        · unfold Fits; cases same <;> simp
      · rw [show subst b0 g.next b = b from if_neg hb0]
        refine ⟨Or.inl h1, ?_⟩
        rcases h2 with (⟨m, tq, h3, h4, h5, h6⟩ | h3 | ⟨m, o, r, h3, h4, h5, h6, h7, h8⟩) | ⟨h3, h4⟩
        · exact Or.inl (Or.inl ⟨m, tq, by rw [hop b hb]; exact h3, h4, h5, h6⟩)
        · rcases List.mem_cons.mp h3 with h3 | h3
          · exact absurd (by injection h3) hb0
          · exact Or.inl (Or.inr (Or.inl h3))
        · refine Or.inl (Or.inr (Or.inr ⟨m, o, r, by rw [hop b hb]; exact h3, h4, h5, h6, ?_, h8⟩))
          rcases List.mem_cons.mp h7 with rfl | h7
          · simp [Rewriter.old] at h8
          · exact h7
        · refine Or.inr ⟨?_, ?_⟩
          · unfold Inner
            rw [hop b hb]
            exact h3
          · intro a ha
            rw [hargs b hb] at ha
            obtain ⟨a0, ha0, rfl⟩ := List.mem_map.mp ha
            exact ih a0 (h4 a0 ha0)
  constructor
  · exact A.keys
  · intro e he
    have := A.bound e he
    show e.2 < g.next + 1
    omega
  · rintro b (hb | rfl)
    · have := A.nodes b hb
      show b < g.next + 1
      omega
    · exact Nat.lt_succ_self _
  · exact A.name
  · exact A.quant
  · have := A.vlt
    show v < g.next + 1
    omega
  · exact A.mq
  · intro r hr o ho
    obtain ⟨h1, h2, h3⟩ := A.olds r (List.mem_cons_of_mem _ hr) o ho
    exact ⟨h1, by show o < g.next + 1; omega, h3⟩
  · intro o e he
    exact A.exacts o e (List.mem_cons_of_mem _ he)
  · intro b hb
    rw [hargs v A.vlt] at hb
    obtain ⟨b1, hb1, rfl⟩ := List.mem_map.mp hb
    exact key fuel b1 (A.walk b1 hb1)

/-- A replacement of module `old` by a module `new` that fits. -/
theorem applying_replace {g g' : Graph} {V : ℕ → Prop} {M : Name → Prop} {v S : ℕ} {same : Bool} {R : List Rewriter} {fuel : ℕ} {r : Rewriter}
    {old new : ℕ} (A : Applying g V M v S same (r :: R) fuel) (hr : r.old = some old)
    (hop : g'.op = g.op) (hargs : g'.args = g.args) (hmods : g'.mods = replaceFirst old new g.mods) (hnext : g.next ≤ g'.next)
    (hobjs : ∀ o < g.next, g'.objs o = g.objs o) (hnew : new < g'.next) (hnewR : ∀ r ∈ R, r.old ≠ some new)
    {tq : TensorQuantId} (htq : (g'.objs new).actQuant = some tq) (hfit : Fits S same tq) :
    Applying g' V M v S same R fuel := by
  obtain ⟨hoS, holt, hokeep⟩ := A.olds r (by simp) old hr
  have hSlt : S < g.next := A.bound _ A.name
  have hkeys' : (g'.mods.map Prod.fst).Nodup := by rw [hmods, replaceFirst_keys]; exact A.keys
  -- what a name refers to afterwards
  have hid : ∀ m o, (m, o) ∈ g.mods → o ≠ old → g'.objId m = o := fun m o h1 h2 =>
    objId_mem hkeys' (by rw [hmods]; exact replaceFirst_keep _ _ _ _ h1 h2)
  have hcase : ∀ m, g'.objId m = g.objId m ∨ (g'.objId m = new ∧ g.objId m = old) := by
    intro m
    by_cases hm : m ∈ g'.mods.map Prod.fst
    · obtain ⟨⟨m', o⟩, h1, rfl⟩ := List.mem_map.mp hm
      have h2 := objId_mem hkeys' h1
      rw [hmods] at h1
      rcases replaceFirst_mem _ _ _ _ h1 with h3 | ⟨h3, h4⟩
      · left; rw [h2]; exact (objId_mem A.keys h3).symm
      · right; exact ⟨by rw [h2]; exact h3, objId_mem A.keys h4⟩
    · left
      have h1 : m ∉ g.mods.map Prod.fst := by rw [hmods, replaceFirst_keys] at hm; exact hm
      have none_of : ∀ l : List (Name × ℕ), m ∉ l.map Prod.fst → (l.find? fun e => e.1 == m) = none := by
        intro l hl
        rw [List.find?_eq_none]
        intro e he
        simp only [beq_iff_eq]
        rintro rfl
        exact hl (List.mem_map.mpr ⟨e, he, rfl⟩)
      unfold Graph.objId
      rw [none_of _ hm, none_of _ h1]
  have hobjlt : ∀ m o, (m, o) ∈ g.mods → g'.objs o = g.objs o := fun m o h => hobjs o (A.bound _ h)
  have key : ∀ f b, Walk g V M (CoverLeaf g M S same (r :: R)) f b → Walk g' V M (CoverLeaf g' M S same R) f b := by
    intro f
    induction f with
    | zero => intro b h; exact h
    | succ f ih =>
      rintro b ⟨h1, h2⟩
      refine ⟨h1, ?_⟩
      -- a call of a module that was replaced is fine
      have good_new : ∀ m, g.op b = .call m → M m → g'.objId m = new → CoverLeaf g' M S same R b := by
        intro m h3 h4 h5
        refine Or.inl ⟨m, tq, by rw [hop]; exact h3, h4, ?_, hfit⟩
        unfold Graph.obj
        rw [h5]
        exact htq
      have obj_same : ∀ m, g'.objId m = g.objId m → g.objId m < g.next → g'.obj m = g.obj m := by
        intro m h3 h4
        unfold Graph.obj
        rw [h3]
        exact hobjs _ h4
      have idlt : ∀ m, g.objId m < g.next := by
        intro m
        unfold Graph.objId
        cases hf : g.mods.find? fun e => e.1 == m with
        | none => simp only [Option.map_none, Option.getD_none]; omega
        | some e => exact A.bound e (List.mem_of_find?_eq_some hf)
      rcases h2 with (⟨m, t, h3, h4, h5, h6⟩ | h3 | ⟨m, o, r', h3, h4, h5, h6, h7, h8⟩) | ⟨h3, h4⟩
      · rcases hcase m with h7 | ⟨h7, -⟩
        · exact Or.inl (Or.inl ⟨m, t, by rw [hop]; exact h3, h4, by rw [obj_same m h7 (idlt m)]; exact h5, h6⟩)
        · exact Or.inl (good_new m h3 h4 h7)
      · rcases List.mem_cons.mp h3 with h3 | h3
        · rw [← h3] at hr; simp [Rewriter.old] at hr
        · exact Or.inl (Or.inr (Or.inl h3))
      · by_cases ho : o = old
        · subst ho
          have : (m, new) ∈ g'.mods := by rw [hmods]; exact replaceFirst_unique _ _ _ _ h5 h6
          exact Or.inl (good_new m h3 h4 (objId_mem hkeys' this))
        · have hr' : r' ∈ R := by
            rcases List.mem_cons.mp h7 with rfl | h7
            · rw [hr] at h8; exact absurd (Option.some.inj h8).symm ho
            · exact h7
          refine Or.inl (Or.inr (Or.inr ⟨m, o, r', by rw [hop]; exact h3, h4, ?_, ?_, hr', h8⟩))
          · rw [hmods]; exact replaceFirst_keep _ _ _ _ h5 ho
          · intro m' hm'
            rw [hmods] at hm'
            rcases replaceFirst_mem _ _ _ _ hm' with h9 | ⟨h9, -⟩
            · exact h6 m' h9
            · have h10 : o = new := h9
              exact absurd (by rw [h8, h10]) (hnewR r' hr')
      · rw [hargs]
        by_cases hrepl : ∃ m, g.op b = .call m ∧ M m ∧ g'.objId m = new ∧ g.objId m = old
        · obtain ⟨m, h5, h6, h7, -⟩ := hrepl
          exact Or.inl (good_new m h5 h6 h7)
        · refine Or.inr ⟨?_, fun a ha => ih a (h4 a ha)⟩
          unfold Inner
          rw [hop]
          rcases h3 with h3 | h3 | ⟨m, h3, h5, h6⟩
          · exact Or.inl h3
          · exact Or.inr (Or.inl h3)
          · refine Or.inr (Or.inr ⟨m, h3, h5, ?_⟩)
            rcases hcase m with h7 | ⟨h7, h8⟩
            · rw [obj_same m h7 (idlt m)]; exact h6
            · exact absurd ⟨m, h3, h5, h7, h8⟩ hrepl
  constructor
  · exact hkeys'
  · intro e he
    rw [hmods] at he
    rcases replaceFirst_mem _ _ _ _ he with h1 | ⟨h1, -⟩
    · have := A.bound e h1; omega
    · rw [h1]; exact hnew
  · intro b hb
    have := A.nodes b hb
    omega
  · rw [hmods]; exact replaceFirst_keep _ _ _ _ A.name (Ne.symm hoS)
  · rw [hobjs S hSlt]; exact A.quant
  · have := A.vlt; omega
  · exact A.mq
  · intro r' hr' o ho
    obtain ⟨h1, h2, h3⟩ := A.olds r' (List.mem_cons_of_mem _ hr') o ho
    exact ⟨h1, by omega, by rw [hobjs o h2]; exact h3⟩
  · intro o e he
    exact A.exacts o e (List.mem_cons_of_mem _ he)
  · intro b hb
    rw [hargs] at hb
    exact key fuel b (A.walk b hb)

theorem applying_step {g : Graph} {V : ℕ → Prop} {M : Name → Prop} {v S : ℕ} {same : Bool} {r : Rewriter} {R : List Rewriter} {fuel : ℕ}
    (A : Applying g V M v S same (r :: R) fuel) :
    Applying (applyRewriter (.quant v) S g r) (fun b => V b ∨ (g.next ≤ b ∧ b < (applyRewriter (.quant v) S g r).next)) M v S same R fuel := by
  have hSlt : S < g.next := A.bound _ A.name
  have weaken : ∀ {g' : Graph} {V V' : ℕ → Prop}, (∀ b, V b → V' b) → (∀ b, V' b → b < g'.next) → Applying g' V M v S same R fuel →
      Applying g' V' M v S same R fuel := by
    intro g' V V' hV hV' B
    exact ⟨B.keys, B.bound, hV', B.name, B.quant, B.vlt, B.mq, B.olds, B.exacts, fun b hb => (B.walk b hb).mono hV (fun _ h => h) (fun _ h => h)⟩
  cases r with
  | insert b0 =>
    refine weaken ?_ ?_ (applying_insert A)
    · rintro b (hb | rfl)
      · exact Or.inl hb
      · exact Or.inr ⟨le_refl _, Nat.lt_succ_self _⟩
    · rintro b (hb | ⟨-, hb⟩)
      · have := A.nodes b hb
        show b < g.next + 1
        omega
      · exact hb
  | share old =>
    refine weaken (V := V) (fun b hb => Or.inl hb) ?_ (applying_replace (old := old) (new := S) (tq := ⟨S, S, S⟩) A rfl rfl rfl rfl (le_refl _)
      (fun _ _ => rfl) hSlt ?_ ?_ ?_)
    · rintro b (hb | ⟨-, hb⟩)
      · exact A.nodes b hb
      · exact hb
    · intro r hr h
      exact (A.olds r (List.mem_cons_of_mem _ hr) S h).1 rfl
    · show (g.objs S).actQuant = _
      rw [A.quant]
      rfl
    · unfold Fits; cases same <;> simp
  | newAct old e =>
    have he : e = same := A.exacts old e (by simp)
    subst he
    refine weaken (V := V) (fun b hb => Or.inl hb) ?_ (applying_replace (old := old) (new := g.next)
      (tq := if e then ⟨S, S, S⟩ else ⟨g.next, S, S⟩) A rfl rfl rfl rfl (Nat.le_succ _) ?_ (Nat.lt_succ_self _) ?_ ?_ ?_)
    · rintro b (hb | ⟨-, hb⟩)
      · have := A.nodes b hb
        show b < g.next + 1
        omega
      · exact hb
    · intro o ho
      exact Function.update_of_ne (by omega) _ _
    · intro r hr h
      have := (A.olds r (List.mem_cons_of_mem _ hr) g.next h).2.1
      omega
    · show (Function.update g.objs g.next _ g.next).actQuant = _
      rw [Function.update_self]
      rfl
    · unfold Fits; cases e <;> simp

end Brevitas.Residual
