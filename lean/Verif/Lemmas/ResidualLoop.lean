import Verif.Lemmas.Residual
import Verif.Spec.Aligned

/-! # The loop of the alignment of additions and concatenations -/

namespace Brevitas.Residual

open Brevitas.Quantize (TensorQuantId tensorQuantInList)

theorem walk_comesFrom {g : Graph} {V : ℕ → Prop} {M : Name → Prop} {fuel b : ℕ} (h : ComesFrom g V M fuel b) :
    Walk g V M (ReadyLeaf g M) fuel b := by
  induction h with
  | other hV hop => exact ⟨hV, Or.inl (Or.inl hop)⟩
  | module hV hop hM hm ho honly => exact ⟨hV, Or.inl (Or.inr ⟨_, _, hop, hM, hm, ho, honly⟩)⟩
  | keep hV hop hM ho _ ih => exact ⟨hV, Or.inr ⟨Or.inr (Or.inr ⟨_, hop, hM, ho⟩), ih⟩⟩
  | shape hV hop _ ih => exact ⟨hV, Or.inr ⟨hop.elim Or.inl fun h => Or.inr (Or.inl h), ih⟩⟩

theorem quantisedBy_good {g : Graph} {V : ℕ → Prop} {M : Name → Prop} {S : ℕ} {same : Bool} {fuel b : ℕ}
    (h : Walk g V M (GoodLeaf g M S same) fuel b) : QuantisedBy g (Fits S same) b := by
  induction fuel generalizing b with
  | zero => exact absurd h (by simp [Walk])
  | succ fuel ih =>
    obtain ⟨-, ⟨m, tq, h1, -, h2, h3⟩ | ⟨h1, h2⟩⟩ := h
    · exact .quant h1 h2 h3
    · rcases h1 with h1 | h1 | ⟨m, h1, -, h3⟩
      · exact .shape (Or.inl h1) fun a ha => ih (h2 a ha)
      · exact .shape (Or.inr h1) fun a ha => ih (h2 a ha)
      · exact .keep h1 h3 fun a ha => ih (h2 a ha)

theorem QuantisedBy.mono {g : Graph} {P Q : TensorQuantId → Prop} (hPQ : ∀ t, P t → Q t) {b : ℕ} (h : QuantisedBy g P b) : QuantisedBy g Q b := by
  induction h with
  | quant h1 h2 h3 => exact .quant h1 h2 (hPQ _ h3)
  | keep h1 h2 _ ih => exact .keep h1 h2 ih
  | shape h1 _ ih => exact .shape h1 ih

/-- Ready inputs that pass the check are quantised by what is on the list. -/
theorem check_ready {g : Graph} {V : ℕ → Prop} {M : Name → Prop} {same : Bool} (hk : (g.mods.map Prod.fst).Nodup) (fuel : ℕ) (l : List ℕ)
    (hl : ∀ b ∈ l, Walk g V M (ReadyLeaf g M) fuel b) (acc : List (Option TensorQuantId)) :
    (∀ x ∈ acc, x ∈ check g fuel same l acc) ∧
      (none ∉ check g fuel same l acc → ∀ b ∈ l, QuantisedBy g (fun tq => tensorQuantInList tq (check g fuel same l acc) same = true) b) := by
  have mono : ∀ {a c : List (Option TensorQuantId)}, (∀ x ∈ a, x ∈ c) → ∀ tq, tensorQuantInList tq a same = true →
      tensorQuantInList tq c same = true := by
    intro a c h tq ht
    unfold tensorQuantInList at ht ⊢
    rw [List.any_eq_true] at ht ⊢
    obtain ⟨x, hx, h1⟩ := ht
    exact ⟨x, h x hx, h1⟩
  induction fuel generalizing l acc with
  | zero => exact ⟨fun x hx => hx, fun _ b hb => absurd (hl b hb) (by simp [Walk])⟩
  | succ fuel ih =>
    rw [check]
    induction l generalizing acc with
    | nil => exact ⟨fun x hx => hx, fun _ b hb => by simp at hb⟩
    | cons b l ihl =>
      rw [List.foldl_cons]
      obtain ⟨h1, h2⟩ := ihl (fun b' hb' => hl b' (by simp [hb'])) (checkArg g (check g fuel) same acc b)
      have step : (∀ x ∈ acc, x ∈ checkArg g (check g fuel) same acc b) ∧ (none ∉ checkArg g (check g fuel) same acc b →
          QuantisedBy g (fun tq => tensorQuantInList tq (checkArg g (check g fuel) same acc b) same = true) b) := by
        obtain ⟨-, h3⟩ := hl b (by simp)
        unfold checkArg
        rcases h3 with (h3 | ⟨m, o, h3, -, h4, h5, -⟩) | ⟨h3, h4⟩
        · rw [h3]
          exact ⟨fun x hx => by simp [hx], fun hn => absurd (by simp) hn⟩
        · rw [h3]
          dsimp only
          by_cases hkeep : g.obj m = .keep
          · unfold Graph.obj at hkeep
            rw [objId_mem hk h4] at hkeep
            exact absurd hkeep h5
          · rw [if_neg hkeep]
            cases haq : (g.obj m).actQuant with
            | none => exact ⟨fun x hx => by simp [hx], fun hn => absurd (by simp) hn⟩
            | some tq =>
              dsimp only
              by_cases hin : tensorQuantInList tq acc same = true
              · rw [if_pos hin]
                exact ⟨fun x hx => hx, fun _ => .quant h3 haq hin⟩
              · rw [if_neg hin]
                refine ⟨fun x hx => by simp [hx], fun _ => .quant h3 haq ?_⟩
                unfold tensorQuantInList
                rw [List.any_append]
                cases same <;> simp
        · have key := ih (g.args b) h4 acc
          rcases h3 with h3 | h3 | ⟨m, h3, -, h5⟩
          · rw [h3]; exact ⟨key.1, fun hn => .shape (Or.inl h3) (key.2 hn)⟩
          · rw [h3]; exact ⟨key.1, fun hn => .shape (Or.inr h3) (key.2 hn)⟩
          · rw [h3]; dsimp only; rw [if_pos h5]; exact ⟨key.1, fun hn => .keep h3 h5 (key.2 hn)⟩
      refine ⟨fun x hx => h1 x (step.1 x hx), fun hn b' hb' => ?_⟩
      rcases List.mem_cons.mp hb' with rfl | hb'
      · exact (step.2 fun h => hn (h1 _ h)).mono (mono h1)
      · exact h2 hn b' hb'

theorem inputsAligned_ready {g : Graph} {V : ℕ → Prop} {M : Name → Prop} (hk : (g.mods.map Prod.fst).Nodup) {fuel v : ℕ}
    (hl : ∀ b ∈ g.args v, Walk g V M (ReadyLeaf g M) fuel b) (ha : aligned g fuel v = true) : InputsAligned g v := by
  obtain ⟨-, h2⟩ := check_ready (same := g.isCat v) hk fuel (g.args v) hl []
  unfold aligned at ha
  simp only [Bool.and_eq_true, Bool.not_eq_true', decide_eq_true_eq] at ha
  obtain ⟨h3, h4⟩ := ha
  rw [List.contains_eq_mem, decide_eq_false_iff_not] at h3
  have h5 := h2 h3
  set l := check g fuel (g.isCat v) (g.args v) [] with hl'
  have hc : ∀ x : TensorQuantId, g.isCat v = true ↔ g.op v = .cat := fun _ => by simp [Graph.isCat]
  match l, h4 with
  | [], _ =>
    refine ⟨⟨0, 0, 0⟩, fun a ha => (h5 a ha).mono fun t ht => ?_⟩
    simp [tensorQuantInList] at ht
  | [none], _ => simp at h3
  | [some t0], _ =>
    refine ⟨t0, fun a ha => (h5 a ha).mono fun t ht => ?_⟩
    unfold tensorQuantInList at ht
    rw [List.any_cons] at ht
    by_cases hcat : g.op v = .cat
    · rw [(hc t).mpr hcat] at ht
      rw [if_pos hcat]
      simpa using (show t0 = t by simpa using ht).symm
    · have : g.isCat v = false := by
        by_contra h
        exact hcat ((hc t).mp (by simpa using h))
      rw [this] at ht
      rw [if_neg hcat]
      have h6 : t0.scaling = t.scaling ∧ t0.intScaling = t.intScaling := by simpa using ht
      exact ⟨h6.1.symm, h6.2.symm⟩

theorem inputsAligned_good {g : Graph} {V : ℕ → Prop} {M : Name → Prop} {S fuel v : ℕ}
    (hl : ∀ b ∈ g.args v, Walk g V M (GoodLeaf g M S (g.isCat v)) fuel b) : InputsAligned g v := by
  refine ⟨⟨S, S, S⟩, fun a ha => (quantisedBy_good (hl a ha)).mono fun t ht => ?_⟩
  unfold Fits at ht
  by_cases hcat : g.op v = .cat
  · rw [if_pos hcat]
    rw [show g.isCat v = true by simp [Graph.isCat, hcat]] at ht
    simpa using ht
  · rw [if_neg hcat]
    rw [show g.isCat v = false by simp [Graph.isCat, hcat]] at ht
    simpa using ht

/-! ### What other additions see -/

/-- `g'` is `g`, as far as one can see within the nodes `V` and the modules `M`. -/
structure SameFrom (g g' : Graph) (V : ℕ → Prop) (M : Name → Prop) : Prop where
  op : ∀ b, V b → g'.op b = g.op b
  args : ∀ b, V b → (∀ a ∈ g.args b, V a) → g'.args b = g.args b
  find : ∀ m, M m → (g'.mods.find? fun e => e.1 == m) = g.mods.find? fun e => e.1 == m
  objs : ∀ o < g.next, g'.objs o = g.objs o
  mods : ∀ e ∈ g'.mods, e ∈ g.mods ∨ g.next ≤ e.2
  next : g.next ≤ g'.next

theorem find_replaceFirst (old new : ℕ) (m : Name) (l : List (Name × ℕ)) (h : (m, old) ∉ l) :
    ((replaceFirst old new l).find? fun e => e.1 == m) = l.find? fun e => e.1 == m := by
  induction l with
  | nil => rfl
  | cons e l ih =>
    rw [List.mem_cons, not_or] at h
    unfold replaceFirst
    by_cases he : e.2 = old
    · rw [if_pos he, List.find?_cons, List.find?_cons]
      have : e.1 ≠ m := by
        rintro rfl
        exact h.1 (by rw [← he])
      rw [show (e.1 == m) = false by simpa using this]
    · rw [if_neg he, List.find?_cons, List.find?_cons, ih h.2]

theorem find_setName (m0 : Name) (o : ℕ) (m : Name) (l : List (Name × ℕ)) (h : m ≠ m0) :
    ((setName m0 o l).find? fun e => e.1 == m) = l.find? fun e => e.1 == m := by
  induction l with
  | nil => simp [setName, Ne.symm h]
  | cons e l ih =>
    unfold setName
    by_cases he : e.1 = m0
    · rw [if_pos he, List.find?_cons, List.find?_cons]
      rw [show ((m0, o).1 == m) = false by simpa using Ne.symm h, show (e.1 == m) = false by rw [he]; simpa using Ne.symm h]
    · rw [if_neg he, List.find?_cons, List.find?_cons, ih]

theorem sameFrom_newQuant {g : Graph} {V : ℕ → Prop} {M : Name → Prop} (hk : (g.mods.map Prod.fst).Nodup) (v : ℕ) (hM : ¬ M (.quant v)) :
    SameFrom g (newQuant g v) V M := by
  refine ⟨fun _ _ => rfl, fun _ _ _ => rfl, ?_, ?_, ?_, Nat.le_succ _⟩
  · intro m hm
    exact find_setName _ _ _ _ (by rintro rfl; exact hM hm)
  · intro o ho
    exact Function.update_of_ne (by omega) _ _
  · rintro ⟨m, o⟩ he
    rcases (setName_mem _ _ _ hk _ _).mp he with ⟨-, h⟩ | ⟨-, h⟩
    · exact Or.inr (le_of_eq h.symm)
    · exact Or.inl h

theorem sameFrom_step {g0 g : Graph} {V : ℕ → Prop} {M : Name → Prop} {m0 : Name} {S : ℕ} (hV : ∀ b, V b → b < g0.next) (hS : g0.next ≤ S)
    (F : SameFrom g0 g V M) (r : Rewriter) (hins : ∀ b, r = .insert b → ¬ V b)
    (hold : ∀ o, r.old = some o → o < g0.next ∧ ∀ m, (m, o) ∈ g0.mods → ¬ M m) : SameFrom g0 (applyRewriter m0 S g r) V M := by
  have hn := F.next
  have hmod : ∀ o new, r.old = some o → ∀ m, M m →
      ((replaceFirst o new g.mods).find? fun e => e.1 == m) = g0.mods.find? fun e => e.1 == m := by
    intro o new ho m hm
    obtain ⟨h1, h2⟩ := hold o ho
    rw [find_replaceFirst, F.find m hm]
    intro h3
    rcases F.mods _ h3 with h4 | h4
    · exact h2 m h4 hm
    · exact absurd h1 (not_lt.mpr h4)
  have hmem : ∀ o new, r.old = some o → g0.next ≤ new → ∀ e ∈ replaceFirst o new g.mods, e ∈ g0.mods ∨ g0.next ≤ e.2 := by
    intro o new ho hnew e he
    rcases replaceFirst_mem _ _ _ _ he with h1 | ⟨h1, -⟩
    · exact F.mods e h1
    · exact Or.inr (by rw [h1]; exact hnew)
  cases r with
  | insert b0 =>
    have hb0 := hins b0 rfl
    refine ⟨?_, ?_, F.find, F.objs, F.mods, ?_⟩
    · intro b hb
      have := hV b hb
      rw [← F.op b hb]
      exact Function.update_of_ne (by omega) _ _
    · intro b hb hargs
      have := hV b hb
      have h1 : (applyRewriter m0 S g (.insert b0)).args b = (g.args b).map (subst b0 g.next) := if_neg (by omega)
      rw [h1, F.args b hb hargs]
      conv_rhs => rw [← List.map_id (g0.args b)]
      apply List.map_congr_left
      intro a ha
      exact if_neg (by rintro rfl; exact hb0 (hargs _ ha))
    · show g0.next ≤ g.next + 1
      omega
  | share old => exact ⟨F.op, F.args, hmod old S rfl, F.objs, hmem old S rfl hS, F.next⟩
  | newAct old e =>
    refine ⟨F.op, F.args, hmod old g.next rfl, ?_, hmem old g.next rfl hn, ?_⟩
    · intro o ho
      rw [← F.objs o ho]
      exact Function.update_of_ne (by omega) _ _
    · show g0.next ≤ g.next + 1
      omega

theorem sameFrom_foldl {g0 : Graph} {V : ℕ → Prop} {M : Name → Prop} {m0 : Name} {S : ℕ} (hV : ∀ b, V b → b < g0.next) (hS : g0.next ≤ S)
    (R : List Rewriter) (hins : ∀ b, .insert b ∈ R → ¬ V b)
    (hold : ∀ r ∈ R, ∀ o, r.old = some o → o < g0.next ∧ ∀ m, (m, o) ∈ g0.mods → ¬ M m) (g : Graph) (F : SameFrom g0 g V M) :
    SameFrom g0 (R.foldl (applyRewriter m0 S) g) V M := by
  induction R generalizing g with
  | nil => exact F
  | cons r R ih =>
    rw [List.foldl_cons]
    refine ih (fun b hb => hins b (by simp [hb])) (fun r' hr' => hold r' (by simp [hr'])) _ ?_
    exact sameFrom_step hV hS F r (fun b hb => hins b (by simp [hb])) (hold r (by simp))

theorem SameFrom.objId {g g' : Graph} {V : ℕ → Prop} {M : Name → Prop} (F : SameFrom g g' V M) {m : Name} (hm : M m) :
    g'.objId m = g.objId m := by
  unfold Graph.objId
  rw [F.find m hm]

theorem objId_lt {g : Graph} (hb : ∀ e ∈ g.mods, e.2 < g.next) (h0 : 0 < g.next) (m : Name) : g.objId m < g.next := by
  unfold Graph.objId
  cases hf : g.mods.find? fun e => e.1 == m with
  | none => simpa using h0
  | some e => exact hb e (List.mem_of_find?_eq_some hf)

theorem SameFrom.obj {g g' : Graph} {V : ℕ → Prop} {M : Name → Prop} (F : SameFrom g g' V M) (hb : ∀ e ∈ g.mods, e.2 < g.next)
    (h0 : 0 < g.next) {m : Name} (hm : M m) : g'.obj m = g.obj m := by
  unfold Graph.obj
  rw [F.objId hm]
  exact F.objs _ (objId_lt hb h0 m)

theorem SameFrom.walk {g g' : Graph} {V : ℕ → Prop} {M : Name → Prop} (F : SameFrom g g' V M) (hb : ∀ e ∈ g.mods, e.2 < g.next)
    (h0 : 0 < g.next) {leaf leaf' : ℕ → Prop} (hleaf : ∀ b, V b → leaf b → leaf' b) {fuel b : ℕ} (h : Walk g V M leaf fuel b) :
    Walk g' V M leaf' fuel b := by
  have hVof : ∀ {f a}, Walk g V M leaf f a → V a := by
    intro f a hw
    cases f with
    | zero => exact absurd hw (by simp [Walk])
    | succ f => exact hw.1
  induction fuel generalizing b with
  | zero => exact h
  | succ fuel ih =>
    obtain ⟨h1, h2⟩ := h
    refine ⟨h1, h2.imp (hleaf b h1) ?_⟩
    rintro ⟨h3, h4⟩
    refine ⟨?_, ?_⟩
    · unfold Inner
      rw [F.op b h1]
      rcases h3 with h3 | h3 | ⟨m, h3, h5, h6⟩
      · exact Or.inl h3
      · exact Or.inr (Or.inl h3)
      · exact Or.inr (Or.inr ⟨m, h3, h5, by rw [F.obj hb h0 h5]; exact h6⟩)
    · rw [F.args b h1 fun a ha => hVof (h4 a ha)]
      exact fun a ha => ih (h4 a ha)

theorem SameFrom.goodLeaf {g g' : Graph} {V : ℕ → Prop} {M : Name → Prop} (F : SameFrom g g' V M) (hb : ∀ e ∈ g.mods, e.2 < g.next)
    (h0 : 0 < g.next) {S : ℕ} {same : Bool} {b : ℕ} (hV : V b) (h : GoodLeaf g M S same b) : GoodLeaf g' M S same b := by
  obtain ⟨m, tq, h1, h2, h3, h4⟩ := h
  exact ⟨m, tq, by rw [F.op b hV]; exact h1, h2, by rw [F.obj hb h0 h2]; exact h3, h4⟩

theorem SameFrom.readyLeaf {g g' : Graph} {V : ℕ → Prop} {M : Name → Prop} (F : SameFrom g g' V M) (hk : (g.mods.map Prod.fst).Nodup)
    (hb : ∀ e ∈ g.mods, e.2 < g.next) {b : ℕ} (hV : V b) (h : ReadyLeaf g M b) : ReadyLeaf g' M b := by
  rcases h with h | ⟨m, o, h1, h2, h3, h4, h5⟩
  · exact Or.inl (by rw [F.op b hV]; exact h)
  · refine Or.inr ⟨m, o, by rw [F.op b hV]; exact h1, h2, ?_, by rw [F.objs o (hb _ h3)]; exact h4, ?_⟩
    · have := F.find m h2
      rw [mem_find hk h3] at this
      exact List.mem_of_find?_eq_some this
    · intro m' hm'
      rcases F.mods _ hm' with h6 | h6
      · exact h5 m' h6
      · exact absurd (hb _ h3) (not_lt.mpr h6)

/-! ### One round -/

theorem applying_foldl {M : Name → Prop} {v S : ℕ} {same : Bool} {fuel : ℕ} (R : List Rewriter) (g : Graph) (V : ℕ → Prop)
    (A : Applying g V M v S same R fuel) :
    ∃ V', (∀ b, V b → V' b) ∧ (∀ b, V' b → V b ∨ g.next ≤ b) ∧ Applying (R.foldl (applyRewriter (.quant v) S) g) V' M v S same [] fuel := by
  induction R generalizing g V with
  | nil => exact ⟨V, fun _ h => h, fun _ h => Or.inl h, A⟩
  | cons r R ih =>
    obtain ⟨V', h0, h1, h2⟩ := ih _ _ (applying_step A)
    refine ⟨V', fun b hb => h0 b (Or.inl hb), fun b hb => ?_, h2⟩
    rcases h1 b hb with (h3 | ⟨h3, -⟩) | h3
    · exact Or.inl h3
    · exact Or.inr h3
    · have : g.next ≤ (applyRewriter (.quant v) S g r).next := by
        cases r with
        | insert b => exact Nat.le_succ _
        | share o => exact le_refl _
        | newAct o e => exact Nat.le_succ _
      exact Or.inr (this.trans h3)

theorem foldl_adds (m : Name) (S : ℕ) (R : List Rewriter) (g : Graph) : (R.foldl (applyRewriter m S) g).adds = g.adds := by
  induction R generalizing g with
  | nil => rfl
  | cons r R ih =>
    rw [List.foldl_cons, ih]
    cases r <;> rfl

theorem foldl_op (m : Name) (S : ℕ) (R : List Rewriter) (g : Graph) (x : ℕ) (hx : x < g.next) :
    (R.foldl (applyRewriter m S) g).op x = g.op x := by
  induction R generalizing g with
  | nil => rfl
  | cons r R ih =>
    rw [List.foldl_cons]
    cases r with
    | insert b =>
      rw [ih _ (Nat.lt_succ_of_lt hx)]
      exact Function.update_of_ne (by omega) _ _
    | share o => rw [ih (applyRewriter m S g (.share o)) hx]; rfl
    | newAct o e => rw [ih _ (Nat.lt_succ_of_lt hx)]; rfl

/-- What holds between two rounds: the additions and concatenations that are not in `todo` were aligned by a round. -/
structure Rounds (g : Graph) (fuel : ℕ) (V : ℕ → ℕ → Prop) (M : ℕ → Name → Prop) (todo : List ℕ) : Prop where
  keys : (g.mods.map Prod.fst).Nodup
  objs : ∀ e ∈ g.mods, e.2 < g.next
  pos : 0 < g.next
  below : ∀ v ∈ g.adds, ∀ b, V v b → b < g.next
  self : ∀ v ∈ g.adds, V v v
  nodes : ∀ v ∈ g.adds, ∀ w ∈ g.adds, v ≠ w → ∀ b, V v b → ¬ V w b
  modules : ∀ v ∈ g.adds, ∀ w ∈ g.adds, v ≠ w → ∀ m, M v m → ¬ M w m
  names : ∀ v ∈ g.adds, ∀ m, M v m → (∃ s, m = .orig s) ∨ m = .quant v
  ready : ∀ v ∈ g.adds, v ∈ todo → ¬ M v (.quant v) ∧ ∀ b ∈ g.args v, Walk g (V v) (M v) (ReadyLeaf g (M v)) fuel b
  good : ∀ v ∈ g.adds, v ∉ todo → ∃ S, ∀ b ∈ g.args v, Walk g (V v) (M v) (GoodLeaf g (M v) S (g.isCat v)) fuel b

theorem round_step {g : Graph} {fuel : ℕ} {V : ℕ → ℕ → Prop} {M : ℕ → Name → Prop} {todo : List ℕ} (I : Rounds g fuel V M todo) {v : ℕ}
    (hv : v ∈ g.adds) (hvt : v ∈ todo) :
    ∃ V' M', Rounds (alignNode g fuel v) fuel V' M' (todo.filter (· ≠ v)) ∧ (alignNode g fuel v).adds = g.adds := by
  obtain ⟨hMv, hready⟩ := I.ready v hv hvt
  set g1 := newQuant g v with hg1
  have hk1 : (g1.mods.map Prod.fst).Nodup := (setName_keys _ _ _ I.keys).1
  have hb1 : ∀ e ∈ g1.mods, e.2 < g1.next := by
    rintro ⟨m, o⟩ he
    rcases (setName_mem _ _ _ I.keys _ _).mp he with ⟨-, h⟩ | ⟨-, h⟩
    · show o < g.next + 1
      omega
    · have := I.objs _ h
      show o < g.next + 1
      exact Nat.lt_succ_of_lt this
  have F1 : SameFrom g g1 (V v) (M v) := sameFrom_newQuant I.keys v hMv
  have hready1 : ∀ b ∈ g.args v, Walk g1 (V v) (M v) (ReadyLeaf g1 (M v)) fuel b := fun b hb =>
    F1.walk I.objs I.pos (fun b' hb' h => F1.readyLeaf I.keys I.objs hb' h) (hready b hb)
  set R := rewriters g1 fuel (g.isCat v) (g.args v) with hR
  have hRmem := fun r hr => rewriters_mem (same := g.isCat v) hk1 fuel (g.args v) hready1 r hr
  have hMne : ∀ m, M v m → m ≠ .quant v := by
    rintro m hm rfl
    exact hMv hm
  have hmem1 : ∀ m o, M v m → (m, o) ∈ g1.mods → (m, o) ∈ g.mods := by
    intro m o hm h
    rcases (setName_mem _ _ _ I.keys _ _).mp h with ⟨h, -⟩ | ⟨-, h⟩
    · exact absurd h (hMne m hm)
    · exact h
  -- the rewriters replace old modules
  have hRold : ∀ r ∈ R, ∀ o, r.old = some o → ∃ m, M v m ∧ (m, o) ∈ g.mods ∧ g.objs o ≠ .keep ∧ ∀ m', (m', o) ∈ g1.mods → m' = m := by
    intro r hr o ho
    rcases hRmem r hr with ⟨b, rfl, -⟩ | ⟨m, o', h1, h2, h3, h4, h5⟩
    · simp [Rewriter.old] at ho
    · have : o' = o := by
        rcases h1 with rfl | rfl <;> exact Option.some.inj ho
      subst this
      have h6 := hmem1 m o' h2 h3
      refine ⟨m, h2, h6, ?_, h5⟩
      rw [← F1.objs o' (I.objs _ h6)]
      exact h4
  have A : Applying g1 (V v) (fun m => M v m ∨ m = .quant v) v g.next (g.isCat v) R fuel := by
    refine ⟨hk1, hb1, ?_, ?_, ?_, ?_, Or.inr rfl, ?_, ?_, ?_⟩
    · intro b hb
      have := I.below v hv b hb
      show b < g.next + 1
      omega
    · exact (setName_mem _ _ _ I.keys _ _).mpr (Or.inl ⟨rfl, rfl⟩)
    · exact Function.update_self _ _ _
    · have := I.below v hv v (I.self v hv)
      show v < g.next + 1
      omega
    · intro r hr o ho
      obtain ⟨m, -, h2, h3, -⟩ := hRold r hr o ho
      have := I.objs _ h2
      refine ⟨by dsimp only at this; omega, by show o < g.next + 1; dsimp only at this; omega, ?_⟩
      rw [F1.objs o this]
      exact h3
    · intro o e he
      rcases hRmem _ he with ⟨b, h1, -⟩ | ⟨m, o', h1 | h1, -⟩
      · exact absurd h1 (by simp)
      · exact absurd h1 (by simp)
      · injection h1
    · intro b hb
      have hb' : b ∈ g.args v := hb
      have h1 := cover_rewriters (S := g.next) (same := g.isCat v) hk1 fuel b (hready1 b hb') R (by
        intro r hr
        rw [hR]
        cases fuel with
        | zero => simp [rewriters] at hr
        | succ fuel =>
          rw [rewriters, List.mem_flatMap] at hr ⊢
          obtain ⟨c, hc, hr⟩ := hr
          rw [List.mem_singleton] at hc
          subst hc
          exact ⟨c, hb', hr⟩)
      refine h1.mono (fun _ h => h) (fun _ h => Or.inl h) ?_
      rintro b' (⟨m, tq, h2, h3, h4, h5⟩ | h2 | ⟨m, o, r, h2, h3, h4⟩)
      · exact Or.inl ⟨m, tq, h2, Or.inl h3, h4, h5⟩
      · exact Or.inr (Or.inl h2)
      · exact Or.inr (Or.inr ⟨m, o, r, h2, Or.inl h3, h4⟩)
  obtain ⟨V1, hV1, hV2, B⟩ := applying_foldl R g1 (V v) A
  have hgdef : R.foldl (applyRewriter (.quant v) g.next) g1 = alignNode g fuel v := rfl
  rw [hgdef] at B
  set g' := alignNode g fuel v with hg'
  have hadds : g'.adds = g.adds := by rw [hg']; unfold alignNode; rw [foldl_adds]; rfl
  -- what the others see
  have hF : ∀ w ∈ g.adds, w ≠ v → SameFrom g g' (V w) (M w) := by
    intro w hw hwv
    have hMw : ¬ M w (.quant v) := by
      intro h
      rcases I.names w hw _ h with ⟨s, h1⟩ | h1
      · exact absurd h1 (by simp)
      · injection h1 with h1
        exact hwv h1.symm
    refine sameFrom_foldl (I.below w hw) (le_refl _) R ?_ ?_ g1 (sameFrom_newQuant I.keys v hMw)
    · intro b hb
      rcases hRmem _ hb with ⟨b', h1, h2⟩ | ⟨m, o, h1 | h1, -⟩
      · injection h1 with h1
        subst h1
        exact I.nodes v hv w hw (Ne.symm hwv) _ h2
      · exact absurd h1 (by simp)
      · exact absurd h1 (by simp)
    · intro r hr o ho
      obtain ⟨m, h1, h2, -, h3⟩ := hRold r hr o ho
      refine ⟨I.objs _ h2, fun m' hm' hMm' => ?_⟩
      have h4 : m' ≠ .quant v := by rintro rfl; exact hMw hMm'
      have h5 : m' = m := h3 m' ((setName_mem _ _ _ I.keys _ _).mpr (Or.inr ⟨h4, hm'⟩))
      subst h5
      exact I.modules v hv w hw (Ne.symm hwv) m' h1 hMm'
  have hnext : g.next < g'.next := B.bound _ B.name
  have hargs : ∀ w ∈ g.adds, w ≠ v → (∀ b ∈ g.args w, V w b) → g'.args w = g.args w := fun w hw hwv h =>
    (hF w hw hwv).args w (I.self w hw) h
  have hVof : ∀ {g : Graph} {V : ℕ → Prop} {M : Name → Prop} {leaf : ℕ → Prop} {f a}, Walk g V M leaf f a → V a := by
    intro g V M leaf f a hw
    cases f with
    | zero => exact absurd hw (by simp [Walk])
    | succ f => exact hw.1
  have hcat : ∀ w ∈ g.adds, g'.isCat w = g.isCat w := by
    intro w hw
    unfold Graph.isCat
    rw [hg']
    unfold alignNode
    rw [foldl_op _ _ _ _ _ (by have := I.below w hw w (I.self w hw); show w < g.next + 1; omega)]
    rfl
  refine ⟨fun w => if w = v then V1 else V w, fun w => if w = v then fun m => M v m ∨ m = .quant v else M w, ?_, hadds⟩
  have hVv : ∀ w ∈ g.adds, ∀ b, (if w = v then V1 else V w) b → V w b ∨ (w = v ∧ g.next ≤ b) := by
    intro w hw b hb
    by_cases h : w = v
    · rw [if_pos h] at hb
      rcases hV2 b hb with h1 | h1
      · exact Or.inl (h ▸ h1)
      · exact Or.inr ⟨h, (Nat.le_succ _).trans h1⟩
    · rw [if_neg h] at hb
      exact Or.inl hb
  have hMvc : ∀ w m, (if w = v then fun m => M v m ∨ m = .quant v else M w) m → M w m ∨ (w = v ∧ m = .quant v) := by
    intro w m hm
    by_cases h : w = v
    · rw [if_pos h] at hm
      rcases hm with h1 | h1
      · exact Or.inl (h ▸ h1)
      · exact Or.inr ⟨h, h1⟩
    · rw [if_neg h] at hm
      exact Or.inl hm
  constructor
  · exact B.keys
  · exact B.bound
  · omega
  · intro w hw b hb
    rw [hadds] at hw
    by_cases h : w = v
    · rw [if_pos h] at hb
      exact B.nodes b hb
    · rw [if_neg h] at hb
      have := I.below w hw b hb
      omega
  · intro w hw
    rw [hadds] at hw
    by_cases h : w = v
    · rw [if_pos h]; subst h; exact hV1 _ (I.self _ hw)
    · rw [if_neg h]; exact I.self w hw
  · intro u hu w hw huw b hb hb'
    rw [hadds] at hu hw
    rcases hVv u hu b hb with h1 | ⟨h1, h2⟩ <;> rcases hVv w hw b hb' with h3 | ⟨h3, h4⟩
    · exact I.nodes u hu w hw huw b h1 h3
    · have := I.below u hu b h1; omega
    · have := I.below w hw b h3; omega
    · exact huw (h1.trans h3.symm)
  · intro u hu w hw huw m hm hm'
    rw [hadds] at hu hw
    rcases hMvc u m hm with h1 | ⟨h1, h2⟩ <;> rcases hMvc w m hm' with h3 | ⟨h3, h4⟩
    · exact I.modules u hu w hw huw m h1 h3
    · subst h3 h4
      rcases I.names u hu _ h1 with ⟨s, h5⟩ | h5
      · exact absurd h5 (by simp)
      · injection h5 with h5
        exact huw h5.symm
    · subst h1 h2
      rcases I.names w hw _ h3 with ⟨s, h5⟩ | h5
      · exact absurd h5 (by simp)
      · injection h5 with h5
        exact huw h5
    · exact huw (h1.trans h3.symm)
  · intro w hw m hm
    rw [hadds] at hw
    rcases hMvc w m hm with h1 | ⟨h1, h2⟩
    · exact I.names w hw m h1
    · exact Or.inr (by rw [h2, h1])
  · intro w hw hwt
    rw [hadds] at hw
    rw [List.mem_filter] at hwt
    have hwv : w ≠ v := by simpa using hwt.2
    obtain ⟨h1, h2⟩ := I.ready w hw hwt.1
    rw [if_neg hwv, if_neg hwv]
    refine ⟨h1, ?_⟩
    rw [hargs w hw hwv fun b hb => hVof (h2 b hb)]
    exact fun b hb => (hF w hw hwv).walk I.objs I.pos (fun b' hb' h => (hF w hw hwv).readyLeaf I.keys I.objs hb' h) (h2 b hb)
  · intro w hw hwt
    rw [hadds] at hw
    rw [hcat w hw]
    by_cases hwv : w = v
    · subst hwv
      rw [if_pos rfl, if_pos rfl]
      refine ⟨g.next, fun b hb => (B.walk b hb).mono (fun _ h => h) (fun _ h => h) ?_⟩
      rintro b' (h1 | h1 | ⟨m, o, r, -, -, -, -, h1, -⟩)
      · exact h1
      · simp at h1
      · simp at h1
    · rw [if_neg hwv, if_neg hwv]
      have hwt' : w ∉ todo := fun h => hwt (List.mem_filter.mpr ⟨h, by simpa using hwv⟩)
      obtain ⟨S, h2⟩ := I.good w hw hwt'
      refine ⟨S, ?_⟩
      rw [hargs w hw hwv fun b hb => hVof (h2 b hb)]
      exact fun b hb => (hF w hw hwv).walk I.objs I.pos (fun b' hb' h => (hF w hw hwv).goodLeaf I.objs I.pos hb' h) (h2 b hb)

theorem rounds_aligned {g : Graph} {fuel : ℕ} {V : ℕ → ℕ → Prop} {M : ℕ → Name → Prop} {todo : List ℕ} (I : Rounds g fuel V M todo) {v : ℕ}
    (hv : v ∈ g.adds) (h : aligned g fuel v = true) : InputsAligned g v := by
  by_cases ht : v ∈ todo
  · exact inputsAligned_ready I.keys (I.ready v hv ht).2 h
  · obtain ⟨S, hS⟩ := I.good v hv ht
    exact inputsAligned_good hS

theorem loop_rounds (fuel : ℕ) (n : ℕ) (g : Graph) (V : ℕ → ℕ → Prop) (M : ℕ → Name → Prop) (todo : List ℕ) (I : Rounds g fuel V M todo)
    (hn : todo.length < n) : ∃ g', residualLoop fuel n g = some g' ∧ g'.adds = g.adds ∧ ∀ v ∈ g.adds, InputsAligned g' v := by
  induction n generalizing g V M todo with
  | zero => omega
  | succ n ih =>
    rw [residualLoop]
    cases hf : g.adds.find? fun v => !aligned g fuel v with
    | none =>
      refine ⟨g, rfl, rfl, fun v hv => rounds_aligned I hv ?_⟩
      rw [List.find?_eq_none] at hf
      simpa using hf v hv
    | some v =>
      have hv := List.mem_of_find?_eq_some hf
      have hna : aligned g fuel v = false := by simpa using List.find?_some hf
      have hvt : v ∈ todo := by
        by_contra h
        obtain ⟨S, hS⟩ := I.good v hv h
        rw [aligned_good hS] at hna
        exact absurd hna (by simp)
      obtain ⟨V', M', I', hadds⟩ := round_step I hv hvt
      have hlen : (todo.filter (· ≠ v)).length < todo.length := by
        apply List.length_filter_lt_length_iff_exists.mpr
        exact ⟨v, hvt, by simp⟩
      obtain ⟨g', h1, h2, h3⟩ := ih _ V' M' _ I' (by omega)
      refine ⟨g', h1, by rw [h2, hadds], ?_⟩
      rw [hadds] at h3
      exact h3

end Brevitas.Residual
