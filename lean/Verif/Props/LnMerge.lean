import Verif.Model.LnMerge
import Verif.Spec.Decoder
import Mathlib.Data.List.Nodup
import Mathlib.Tactic.Ring
import Mathlib.Tactic.FieldSimp
import Mathlib.Data.Rat.Defs
import Mathlib.Algebra.Field.Rat

/-!
# C84: merging the affine parameters of layer norms
-/

namespace Brevitas.LnMerge

open Finset Brevitas.Awq Brevitas.Spec

variable {K : Type*} [Field K]

/-! ## Specification -/

/-- Rows of features. -/
abbrev Rows (K : Type*) := ℕ → ℕ → K

/-- What a module computes. -/
def modValue : Mod K (Rows K) → Rows K → Rows K
  | .norm true n, x => fun t => opRow (.norm n) (x t)
  | .norm false n, x => fun t => n.core (x t)
  | .linear l, x => fun t => opRow (.linear l) (x t)
  | .other _ f, x => f x

/-- The value of a node, given those of the nodes it reads; sizes do not depend on values. -/
def nodeValue (mods : ℕ → Mod K (Rows K)) (size : ℕ → Rows K) (v : ℕ → Rows K) : Node (Rows K) → Rows K
  | .module t a => modValue (mods t) (v a)
  | .size a => size a
  | .other _ f as => f (as.map v)

/-- `v` are the values of the nodes when the graph is run. -/
def Runs (g : List (Node (Rows K))) (mods : ℕ → Mod K (Rows K)) (size : ℕ → Rows K) (v : ℕ → Rows K) : Prop :=
  ∀ k n, g[k]? = some n → v k = nodeValue mods size v n

/-- Node `k` is a call of a norm. -/
def IsNorm (g : List (Node (Rows K))) (mods : ℕ → Mod K (Rows K)) (k : ℕ) : Prop := ∃ t a aff n, g[k]? = some (.module t a) ∧ mods t = .norm aff n

/-- The graphs considered: nodes read earlier nodes, no linear layer is called twice, no weight of a norm is zero, and what reads a norm is neither a reshaping nor
a scale invariant module. -/
structure Plain (g : List (Node (Rows K))) (mods : ℕ → Mod K (Rows K)) : Prop where
  order : ∀ (k : ℕ) (n : Node (Rows K)), g[k]? = some n → ∀ a ∈ n.args, a < k
  once : ∀ (k k' t a a' : ℕ) (l : Linear K), g[k]? = some (Node.module t a) → g[k']? = some (Node.module t a') → mods t = .linear l → k = k'
  weight : ∀ (t : ℕ) (aff : Bool) (n : Norm K), mods t = .norm aff n → ∀ c < n.dim, n.weight c ≠ 0
  direct : ∀ (i u : ℕ) (n : Node (Rows K)), IsNorm g mods i → g[u]? = some n → i ∈ n.args →
    (∀ f as, n ≠ .other true f as) ∧ ∀ t a f, n = .module t a → mods t ≠ .other true f

/-! ## Lemmas -/

section
variable {V : Type*}

theorem mem_users (g : List (Node V)) (i u : ℕ) : u ∈ users g i ↔ ∃ n, g[u]? = some n ∧ i ∈ n.args := by
  unfold users
  rw [List.mem_filter, List.mem_range]
  constructor
  · rintro ⟨_, h⟩
    cases e : g[u]? with
    | none => rw [e] at h; exact absurd h (by simp)
    | some n =>
      rw [e] at h
      exact ⟨n, rfl, by simpa using h⟩
  · rintro ⟨n, e, h⟩
    refine ⟨(List.getElem?_eq_some_iff.mp e).1, ?_⟩
    rw [e]
    simpa using h

theorem mem_workAt (g : List (Node V)) (mods : ℕ → Mod K V) (i : ℕ) (w : ℕ × ℕ × ℕ) :
    w ∈ workAt g mods i ↔ w.1 = i ∧ ∃ a aff n m, g[i]? = some (.module w.2.1 a) ∧ mods w.2.1 = .norm aff n ∧ g[w.2.2]? = some m ∧ i ∈ m.args := by
  obtain ⟨i', t', u⟩ := w
  constructor
  · intro h
    unfold workAt at h
    split at h
    · next t a e =>
      split at h
      · next aff n e2 =>
        obtain ⟨u', hu, he⟩ := List.mem_map.mp h
        injection he with h1 h2
        injection h2 with h2 h3
        subst h1 h2 h3
        obtain ⟨m, hm, hm2⟩ := (mem_users g i u').mp hu
        exact ⟨rfl, a, aff, n, m, e, e2, hm, hm2⟩
      · exact absurd h (by simp)
    · exact absurd h (by simp)
  · rintro ⟨rfl, a, aff, n, m, e, e2, hm, hm2⟩
    dsimp only at *
    unfold workAt
    rw [e]
    simp only [e2]
    exact List.mem_map.mpr ⟨u, (mem_users g i' u).mpr ⟨m, hm, hm2⟩, rfl⟩

theorem mem_work (g : List (Node V)) (mods : ℕ → Mod K V) (i t u : ℕ) :
    (i, t, u) ∈ work g mods ↔ ∃ a aff n m, g[i]? = some (.module t a) ∧ mods t = .norm aff n ∧ g[u]? = some m ∧ i ∈ m.args := by
  unfold work
  rw [List.mem_flatMap]
  constructor
  · rintro ⟨i', _, h⟩
    obtain ⟨h1, h2⟩ := (mem_workAt g mods i' _).mp h
    dsimp only at h1 h2
    subst h1
    exact h2
  · rintro ⟨a, aff, n, m, e, h⟩
    exact ⟨i, List.mem_range.mpr (List.getElem?_eq_some_iff.mp e).1, (mem_workAt g mods i _).mpr ⟨rfl, a, aff, n, m, e, h⟩⟩

theorem nodup_work (g : List (Node V)) (mods : ℕ → Mod K V) : (work g mods).Nodup := by
  unfold work
  rw [List.nodup_flatMap]
  constructor
  · intro i _
    unfold workAt
    split
    · split
      · refine List.Nodup.map ?_ ?_
        · intro u u' h
          injection h with _ h
          injection h with _ h
        · exact List.nodup_range.filter _
      · exact List.nodup_nil
    · exact List.nodup_nil
  · refine List.Pairwise.imp ?_ (List.nodup_range (n := g.length))
    intro i j hij w hw hw'
    exact hij (((mem_workAt g mods i w).mp hw).1.symm.trans ((mem_workAt g mods j w).mp hw').1)

/-- The bias of a norm in terms of what it was. -/
def nowBias (n : Norm K) (scaled : Bool) : Option (ℕ → K) := if scaled then n.bias.map fun b c => b c / n.weight c else n.bias

/-- What is true between two users. -/
structure Inv (g : List (Node V)) (mods : ℕ → Mod K V) (done : List (ℕ × ℕ × ℕ)) (st : State K V) : Prop where
  norm : ∀ (t : ℕ) (aff : Bool) (n : Norm K), mods t = .norm aff n → st.mods t = .norm aff { n with bias := nowBias n (decide (t ∈ st.scaled)) }
  linear : ∀ (t : ℕ) (l : Linear K), mods t = .linear l →
    (st.mods t = .linear l ∧ ∀ i s u a, (i, s, u) ∈ done → g[u]? = some (Node.module t a) → st.merged s = some false) ∨
      ∃ i s u a n b, (i, s, u) ∈ done ∧ g[u]? = some (Node.module t a) ∧ mods s = .norm true n ∧ n.bias = some b ∧ n.dim = l.inFeatures ∧
        st.mods t = .linear (mergeLinear l n.weight fun c => b c / n.weight c)
  other : ∀ (t : ℕ) (inv : Bool) (f : V → V), mods t = .other inv f → st.mods t = .other inv f
  scaled : ∀ t ∈ st.scaled, st.merged t ≠ none
  merged : ∀ t, st.merged t ≠ none → ∃ i u, (i, t, u) ∈ done
  seen : ∀ i s u, (i, s, u) ∈ done → (∃ a, g[u]? = some (Node.size a)) ∨ ∃ t a, g[u]? = some (Node.module t a) ∧ st.merged s ≠ none ∧
    (st.merged s = some true → ∃ l, mods t = .linear l)

theorem setMerged_some_false (m : ℕ → Option Bool) (t t' : ℕ) (b : Bool) (h : m t' = some false) : setMerged m t b t' = some false := by
  unfold setMerged
  by_cases e : t' = t
  · subst e; rw [Function.update_self, h]; simp
  · rw [Function.update_of_ne e]; exact h

theorem setMerged_ne_none (m : ℕ → Option Bool) (t t' : ℕ) (b : Bool) (h : m t' ≠ none) : setMerged m t b t' ≠ none := by
  unfold setMerged
  by_cases e : t' = t
  · subst e; simp
  · rw [Function.update_of_ne e]; exact h

theorem setMerged_self (m : ℕ → Option Bool) (t : ℕ) (b : Bool) : setMerged m t b t ≠ none := by
  unfold setMerged
  simp

theorem setMerged_some_true (m : ℕ → Option Bool) (t t' : ℕ) (b : Bool) (h : setMerged m t b t' = some true) (hn : m t' ≠ none) : m t' = some true := by
  unfold setMerged at h
  by_cases e : t' = t
  · subst e
    rw [Function.update_self] at h
    cases e2 : m t' with
    | none => exact absurd e2 hn
    | some b' =>
      rw [e2] at h
      simp only [Option.some.injEq, Bool.and_eq_true] at h
      rw [h.1]
  · rw [Function.update_of_ne e] at h; exact h

theorem setMerged_false (m : ℕ → Option Bool) (t : ℕ) : setMerged m t false t ≠ some true := by
  unfold setMerged
  rw [Function.update_self]
  cases m t <;> simp

theorem setMerged_from (m : ℕ → Option Bool) (t t' : ℕ) (b : Bool) (h : setMerged m t b t' ≠ none) : t' = t ∨ m t' ≠ none := by
  unfold setMerged at h
  by_cases e : t' = t
  · exact Or.inl e
  · rw [Function.update_of_ne e] at h; exact Or.inr h

theorem passes_eq (g : List (Node V)) (mods : ℕ → Mod K V) (done : List (ℕ × ℕ × ℕ)) (st : State K V) (h : Inv g mods done st) (u : ℕ) :
    passes g st.mods u = passes g mods u := by
  unfold passes
  cases e : g[u]? with
  | none => rfl
  | some n =>
    cases n with
    | size a => rfl
    | other r f as => rfl
    | module t a =>
      dsimp only
      cases em : mods t with
      | norm aff n => rw [h.norm t aff n em]
      | other inv f => rw [h.other t inv f em]
      | linear l =>
        rcases h.linear t l em with ⟨h1, _⟩ | ⟨_, _, _, _, _, _, _, _, _, _, _, h1⟩ <;> rw [h1]

theorem setMerged_false_self (m : ℕ → Option Bool) (t : ℕ) : setMerged m t false t = some false := by
  unfold setMerged
  rw [Function.update_self]
  cases m t <;> simp

/-- One user. -/
theorem mergeInto_inv (g : List (Node V)) (mods : ℕ → Mod K V) (done : List (ℕ × ℕ × ℕ)) (st st' : State K V) (h : Inv g mods done st) (i s u t a : ℕ)
    (hu : g[u]? = some (Node.module t a)) (hs : ∃ aff n, mods s = .norm aff n)
    (hdone : ∀ l, mods t = .linear l → ∀ i' s' u' a', (i', s', u') ∈ done → g[u']? ≠ some (Node.module t a'))
    (e : mergeInto s t st = .ok st') : Inv g mods (done ++ [(i, s, u)]) st' := by
  obtain ⟨aff, n, hs⟩ := hs
  have hn := h.norm s aff n hs
  -- the state if nothing is merged
  have refuse : (∀ l, mods t = .linear l → aff = false) → st' = { st with merged := setMerged st.merged s false } → Inv g mods (done ++ [(i, s, u)]) st' := by
    rintro hl rfl
    constructor
    · exact h.norm
    · intro t' l hl'
      rcases h.linear t' l hl' with ⟨h1, h2⟩ | ⟨i', s', u', a', n', b', h1, h2⟩
      · refine Or.inl ⟨h1, ?_⟩
        intro i' s' u' a' hm hg
        rcases List.mem_append.mp hm with hm | hm
        · exact setMerged_some_false _ _ _ _ (h2 i' s' u' a' hm hg)
        · rw [List.mem_singleton] at hm
          injection hm with _ hm
          injection hm with hm _
          subst hm
          exact setMerged_false_self _ _
      · exact Or.inr ⟨i', s', u', a', n', b', List.mem_append_left _ h1, h2⟩
    · exact h.other
    · exact fun t' ht' => setMerged_ne_none _ _ _ _ (h.scaled t' ht')
    · intro t' ht'
      rcases setMerged_from _ _ _ _ ht' with rfl | h1
      · exact ⟨i, u, by simp⟩
      · obtain ⟨i', u', h2⟩ := h.merged t' h1
        exact ⟨i', u', List.mem_append_left _ h2⟩
    · intro i' s' u' hm
      rcases List.mem_append.mp hm with hm | hm
      · rcases h.seen i' s' u' hm with h1 | ⟨t', a', h1, h2, h3⟩
        · exact Or.inl h1
        · exact Or.inr ⟨t', a', h1, setMerged_ne_none _ _ _ _ h2, fun h4 => h3 (setMerged_some_true _ _ _ _ h4 h2)⟩
      · rw [List.mem_singleton] at hm
        injection hm with hm1 hm
        injection hm with hm2 hm3
        subst hm1 hm2 hm3
        exact Or.inr ⟨t, a, hu, setMerged_self _ _ _, fun h4 => absurd h4 (setMerged_false _ _)⟩
  unfold mergeInto at e
  rw [hn] at e
  cases aff with
  | false =>
    dsimp only at e
    injection e with e
    exact refuse (fun _ _ => rfl) e.symm
  | true =>
    cases et : mods t with
    | norm aff' n' =>
      rw [h.norm t aff' n' et] at e
      dsimp only at e
      injection e with e
      exact refuse (fun l hl => by rw [et] at hl; exact absurd hl (by simp)) e.symm
    | other inv f =>
      rw [h.other t inv f et] at e
      dsimp only at e
      injection e with e
      exact refuse (fun l hl => by rw [et] at hl; exact absurd hl (by simp)) e.symm
    | linear l =>
      have hst : st.mods t = .linear l := by
        rcases h.linear t l et with ⟨h1, _⟩ | ⟨i', s', u', a', n', b', h1, h2, _⟩
        · exact h1
        · exact absurd h2 (hdone l et i' s' u' a' h1)
      rw [hst] at e
      dsimp only at e
      have hst2 : s ≠ t := by
        rintro rfl
        rw [hs] at et
        exact absurd et (by simp)
      cases eb : n.bias with
      | none =>
        rw [show nowBias n (decide (s ∈ st.scaled)) = none by unfold nowBias; rw [eb]; simp] at e
        exact absurd e (by simp)
      | some b =>
        have hb : ∃ b', nowBias n (decide (s ∈ st.scaled)) = some b' ∧ lnBias n.weight b' (decide (s ∉ st.scaled)) = fun c => b c / n.weight c := by
          unfold nowBias lnBias
          rw [eb]
          by_cases hsc : s ∈ st.scaled
          · exact ⟨_, if_pos (by simpa using hsc), if_neg (by simpa using hsc)⟩
          · exact ⟨_, if_neg (by simpa using hsc), if_pos (by simpa using hsc)⟩
        obtain ⟨b', hb1, hb2⟩ := hb
        rw [hb1] at e
        dsimp only at e
        by_cases hd : n.dim = l.inFeatures
        · rw [if_pos hd, hb2] at e
          injection e with e
          subst e
          constructor
          · intro t' aff' n' ht'
            dsimp only
            have hne : t' ≠ t := by
              rintro rfl
              rw [et] at ht'
              exact absurd ht' (by simp)
            rw [Function.update_of_ne hne]
            by_cases hts : t' = s
            · subst hts
              rw [hs] at ht'
              injection ht' with h1 h2
              subst h1 h2
              rw [Function.update_self]
              unfold nowBias
              rw [eb, if_pos (by simp)]
              rfl
            · rw [Function.update_of_ne hts, h.norm t' aff' n' ht']
              have : decide (t' ∈ s :: st.scaled) = decide (t' ∈ st.scaled) := by
                simp [hts]
              rw [this]
          · intro t' l' hl'
            dsimp only
            by_cases htt : t' = t
            · subst htt
              rw [et] at hl'
              injection hl' with hl'
              subst hl'
              exact Or.inr ⟨i, s, u, a, n, b, by simp, hu, hs, eb, hd, by rw [Function.update_self]⟩
            · have hts : t' ≠ s := by
                rintro rfl
                rw [hs] at hl'
                exact absurd hl' (by simp)
              rw [Function.update_of_ne htt, Function.update_of_ne hts]
              rcases h.linear t' l' hl' with ⟨h1, h2⟩ | ⟨i', s', u', a', n', b', h1, h2⟩
              · refine Or.inl ⟨h1, ?_⟩
                intro i' s' u' a' hm hg
                rcases List.mem_append.mp hm with hm | hm
                · exact setMerged_some_false _ _ _ _ (h2 i' s' u' a' hm hg)
                · rw [List.mem_singleton] at hm
                  injection hm with _ hm
                  injection hm with _ hm
                  subst hm
                  rw [hu] at hg
                  injection hg with hg
                  injection hg with hg _
                  exact absurd hg.symm htt
              · exact Or.inr ⟨i', s', u', a', n', b', List.mem_append_left _ h1, h2⟩
          · intro t' inv f ht'
            dsimp only
            have h1 : t' ≠ t := by
              rintro rfl
              rw [et] at ht'
              exact absurd ht' (by simp)
            have h2 : t' ≠ s := by
              rintro rfl
              rw [hs] at ht'
              exact absurd ht' (by simp)
            rw [Function.update_of_ne h1, Function.update_of_ne h2]
            exact h.other t' inv f ht'
          · intro t' ht'
            rcases List.mem_cons.mp ht' with rfl | ht'
            · exact setMerged_self _ _ _
            · exact setMerged_ne_none _ _ _ _ (h.scaled t' ht')
          · intro t' ht'
            rcases setMerged_from _ _ _ _ ht' with rfl | h1
            · exact ⟨i, u, by simp⟩
            · obtain ⟨i', u', h2⟩ := h.merged t' h1
              exact ⟨i', u', List.mem_append_left _ h2⟩
          · intro i' s' u' hm
            rcases List.mem_append.mp hm with hm | hm
            · rcases h.seen i' s' u' hm with h1 | ⟨t', a', h1, h2, h3⟩
              · exact Or.inl h1
              · exact Or.inr ⟨t', a', h1, setMerged_ne_none _ _ _ _ h2, fun h4 => h3 (setMerged_some_true _ _ _ _ h4 h2)⟩
            · rw [List.mem_singleton] at hm
              injection hm with hm1 hm
              injection hm with hm2 hm3
              subst hm1 hm2 hm3
              exact Or.inr ⟨t, a, hu, setMerged_self _ _ _, fun _ => ⟨l, et⟩⟩
        · rw [if_neg hd] at e
          exact absurd e (by simp)

end

/-- Nothing that reads a norm passes. -/
theorem Plain.not_passes {g : List (Node (Rows K))} {mods : ℕ → Mod K (Rows K)} (hp : Plain g mods) {i t u : ℕ} (hw : (i, t, u) ∈ work g mods) :
    passes g mods u = false := by
  obtain ⟨a, aff, n, m, e1, e2, e3, e4⟩ := (mem_work g mods i t u).mp hw
  obtain ⟨h1, h2⟩ := hp.direct i u m ⟨t, a, aff, n, e1, e2⟩ e3 e4
  unfold passes
  rw [e3]
  cases m with
  | size a => rfl
  | other r f as =>
    dsimp only
    cases r with
    | false => rfl
    | true => exact absurd rfl (h1 f as)
  | module t' a' =>
    dsimp only
    cases em : mods t' with
    | norm _ _ => rfl
    | linear _ => rfl
    | other inv f =>
      dsimp only
      cases inv with
      | false => rfl
      | true => exact absurd em (h2 t' a' f rfl)

theorem mergeStep_inv (g : List (Node (Rows K))) (mods : ℕ → Mod K (Rows K)) (hp : Plain g mods) (ws done : List (ℕ × ℕ × ℕ)) (w : ℕ × ℕ × ℕ)
    (hw : done ++ w :: ws = work g mods) (st st1 : State K (Rows K)) (h : Inv g mods done st) (e1 : mergeUser g w.1 w.2.1 w.2.2 st = .ok st1) :
    Inv g mods (done ++ [w]) st1 := by
  obtain ⟨i, t, u⟩ := w
  dsimp only at e1
  have hmem : (i, t, u) ∈ work g mods := by rw [← hw]; simp
  have hpass : passes g st.mods u = false := (passes_eq g mods done st h u).trans (hp.not_passes hmem)
  unfold mergeUser skip at e1
  rw [if_neg (by rw [hpass]; simp)] at e1
  dsimp only at e1
  obtain ⟨a, aff, n, m, g1, g2, g3, g4⟩ := (mem_work g mods i t u).mp hmem
  rw [g3] at e1
  cases m with
  | other r f as => exact absurd e1 (by simp)
  | size b =>
    dsimp only at e1
    injection e1 with e1
    subst e1
    refine ⟨h.norm, ?_, h.other, h.scaled, ?_, ?_⟩
    · intro t' l hl
      rcases h.linear t' l hl with ⟨h1, h2⟩ | ⟨i', s', u', a', n', b', h1, h2⟩
      · refine Or.inl ⟨h1, ?_⟩
        intro i' s' u' a' hm hg
        rcases List.mem_append.mp hm with hm | hm
        · exact h2 i' s' u' a' hm hg
        · rw [List.mem_singleton] at hm
          injection hm with _ hm
          injection hm with _ hm
          subst hm
          rw [g3] at hg
          exact absurd hg (by simp)
      · exact Or.inr ⟨i', s', u', a', n', b', List.mem_append_left _ h1, h2⟩
    · intro t' ht'
      obtain ⟨i', u', h2⟩ := h.merged t' ht'
      exact ⟨i', u', List.mem_append_left _ h2⟩
    · intro i' s' u' hm
      rcases List.mem_append.mp hm with hm | hm
      · exact h.seen i' s' u' hm
      · rw [List.mem_singleton] at hm
        injection hm with hm1 hm
        injection hm with hm2 hm3
        subst hm1 hm2 hm3
        exact Or.inl ⟨b, g3⟩
  | module t' a' =>
    dsimp only at e1
    refine mergeInto_inv g mods done st st1 h i t u t' a' g3 ⟨aff, n, g2⟩ ?_ e1
    intro l hl i2 s2 u2 a2 hm2 hg2
    have hu2 : u2 = u := hp.once u2 u t' a2 a' l hg2 g3 hl
    subst hu2
    have hm3 : (i2, s2, u2) ∈ work g mods := by rw [← hw]; exact List.mem_append_left _ hm2
    obtain ⟨a3, aff3, n3, m3, k1, k2, k3, k4⟩ := (mem_work g mods i2 s2 u2).mp hm3
    rw [g3] at k3
    injection k3 with k3
    subst k3
    have hi : i2 = i := (List.mem_singleton.mp k4).trans (List.mem_singleton.mp g4).symm
    subst hi
    rw [g1] at k1
    injection k1 with k1
    injection k1 with k1 _
    subst k1
    have hnd := nodup_work g mods
    rw [← hw] at hnd
    exact (List.nodup_append.mp hnd).2.2 _ hm2 _ (by simp) rfl

theorem mergeAll_inv (g : List (Node (Rows K))) (mods : ℕ → Mod K (Rows K)) (hp : Plain g mods) (ws done : List (ℕ × ℕ × ℕ)) (hw : done ++ ws = work g mods)
    (st st' : State K (Rows K)) (h : Inv g mods done st) (e : mergeAll g ws st = .ok st') : Inv g mods (work g mods) st' := by
  induction ws generalizing done st with
  | nil =>
    injection e with e
    rw [List.append_nil] at hw
    rw [← e, ← hw]
    exact h
  | cons w ws ih =>
    obtain ⟨i, t, u⟩ := w
    unfold mergeAll at e
    cases e1 : mergeUser g i t u st with
    | error f => rw [e1] at e; exact absurd e (by simp)
    | ok st1 =>
      rw [e1] at e
      dsimp only at e
      exact ih (done ++ [(i, t, u)]) (by rw [← hw]; simp) st1 (mergeStep_inv g mods hp ws done (i, t, u) hw st st1 h e1) e

/-- The state at the start. -/
theorem inv_start (g : List (Node (Rows K))) (mods : ℕ → Mod K (Rows K)) : Inv g mods [] ⟨mods, [], fun _ => none⟩ := by
  refine ⟨?_, ?_, ?_, ?_, ?_, ?_⟩
  · intro t aff n h
    exact h
  · intro t l h
    exact Or.inl ⟨h, fun i s u a hm => absurd hm (by simp)⟩
  · exact fun t inv f h => h
  · exact fun t ht => absurd ht (by simp)
  · exact fun t ht => absurd rfl ht
  · exact fun i s u hm => absurd hm (by simp)

/-- A linear layer after a norm, merged. -/
theorem merged_row (l : Linear K) (n : Norm K) (b : ℕ → K) (hb : n.bias = some b) (hd : n.dim = l.inFeatures) (hw : ∀ c < n.dim, n.weight c ≠ 0) (x : ℕ → K) :
    opRow (.linear (mergeLinear l n.weight fun c => b c / n.weight c))
      (opRow (.norm { n with weight := fun _ => 1, bias := some fun _ => 0 }) x) = opRow (.linear l) (opRow (.norm n) x) := by
  funext o
  show (∑ i ∈ range l.inFeatures, l.weight o i * n.weight i * (n.core x i * 1 + 0)) +
      ((∑ i ∈ range l.inFeatures, l.weight o i * n.weight i * (b i / n.weight i)) + (l.bias.map (· o)).getD 0) =
    (∑ i ∈ range l.inFeatures, l.weight o i * (n.core x i * n.weight i + (n.bias.map (· i)).getD 0)) + (l.bias.map (· o)).getD 0
  rw [← add_assoc, ← sum_add_distrib]
  congr 1
  apply sum_congr rfl
  intro i hi
  have := hw i (by rw [hd]; exact mem_range.mp hi)
  rw [hb]
  simp only [Option.map_some, Option.getD_some]
  field_simp
  ring

/-- What is left by a merge that succeeds. -/
theorem merge_state (g : List (Node (Rows K))) (mods mods' : ℕ → Mod K (Rows K)) (hp : Plain g mods) (h : merge g mods = .ok mods') :
    ∃ st, Inv g mods (work g mods) st ∧ (∀ t, st.merged t ≠ some false) ∧ mods' = reset st := by
  unfold merge at h
  cases e : mergeAll g (work g mods) ⟨mods, [], fun _ => none⟩ with
  | error f => rw [e] at h; exact absurd h (by simp)
  | ok st =>
    rw [e] at h
    dsimp only at h
    have hi := mergeAll_inv g mods hp (work g mods) [] rfl _ st (inv_start g mods) e
    by_cases ha : ((work g mods).any fun w => decide (st.merged w.2.1 = some false)) = true
    · rw [if_pos ha] at h
      exact absurd h (by simp)
    · rw [if_neg ha] at h
      injection h with h
      refine ⟨st, hi, ?_, h.symm⟩
      intro t ht
      obtain ⟨i, u, hm⟩ := hi.merged t (by rw [ht]; simp)
      apply ha
      rw [List.any_eq_true]
      exact ⟨_, hm, by simpa using ht⟩

theorem reset_norm_true (g : List (Node (Rows K))) (mods : ℕ → Mod K (Rows K)) (done : List (ℕ × ℕ × ℕ)) (st : State K (Rows K)) (h : Inv g mods done st)
    (t : ℕ) (aff : Bool) (n : Norm K) (b : ℕ → K) (ht : mods t = .norm aff n) (hb : n.bias = some b) (hm : st.merged t = some true) :
    reset st t = .norm aff { n with weight := fun _ => 1, bias := some fun _ => 0 } := by
  unfold reset
  rw [hm, h.norm t aff n ht]
  unfold nowBias
  rw [hb]
  dsimp only
  split_ifs <;> rfl

theorem reset_linear (st : State K (Rows K)) (t : ℕ) (l : Linear K) (h : st.mods t = .linear l) : reset st t = .linear l := by
  unfold reset
  rw [h]
  split <;> simp_all

theorem reset_other (st : State K (Rows K)) (t : ℕ) (inv : Bool) (f : Rows K → Rows K) (h : st.mods t = .other inv f) : reset st t = .other inv f := by
  unfold reset
  rw [h]
  split <;> simp_all

/-! ## Theorems -/

/-- **C84.**  Whatever the graph, its norms and linear layers and its inputs: if merging succeeds, every node that is not a call of a norm has the value it had. -/
theorem C84_merge_partial (g : List (Node (Rows K))) (mods mods' : ℕ → Mod K (Rows K)) (hp : Plain g mods) (h : merge g mods = .ok mods')
    (size v v' : ℕ → Rows K) (hv : Runs g mods size v) (hv' : Runs g mods' size v') (k : ℕ) (hk : k < g.length) (hn : ¬ IsNorm g mods k) :
    v' k = v k := by
  obtain ⟨st, hi, hf, rfl⟩ := merge_state g mods mods' hp h
  -- the nodes whose values change
  have key : ∀ k < g.length,
      (∃ s a aff n x, g[k]? = some (Node.module s a) ∧ mods s = .norm aff n ∧ st.merged s = some true ∧ v k = modValue (mods s) x ∧
        v' k = modValue (reset st s) x) ∨
      ((∀ s a aff n, g[k]? = some (Node.module s a) → mods s = .norm aff n → st.merged s ≠ some true) ∧ v' k = v k) := by
    intro k
    induction k using Nat.strong_induction_on with
    | _ k ih =>
    intro hk
    obtain ⟨nd, hnd⟩ : ∃ nd, g[k]? = some nd := ⟨_, List.getElem?_eq_getElem hk⟩
    have hval := hv k nd hnd
    have hval' := hv' k nd hnd
    cases nd with
    | size a =>
      refine Or.inr ⟨fun s a aff n h1 => ?_, ?_⟩
      · rw [hnd] at h1; exact absurd h1 (by simp)
      · rw [hval, hval']; rfl
    | other r f as =>
      refine Or.inr ⟨fun s a aff n h1 => ?_, ?_⟩
      · rw [hnd] at h1; exact absurd h1 (by simp)
      · rw [hval, hval']
        show f (as.map v') = f (as.map v)
        congr 1
        apply List.map_congr_left
        intro a ha
        have hlt := hp.order k _ hnd a ha
        rcases ih a hlt (by omega) with ⟨s, a', aff, n, x, h1, h2, h3, _⟩ | h1
        · have hw := (mem_work g mods a s k).mpr ⟨a', aff, n, _, h1, h2, hnd, ha⟩
          rcases hi.seen a s k hw with ⟨b, hb⟩ | ⟨t, b, hb, _⟩ <;> (rw [hnd] at hb; exact absurd hb (by simp))
        · exact h1.2
    | module t a =>
      have hlt := hp.order k _ hnd a (by simp [Node.args])
      replace hval : v k = modValue (mods t) (v a) := hval
      replace hval' : v' k = modValue (reset st t) (v' a) := hval'
      rcases ih a hlt (by omega) with ⟨s, a', aff, n, x, h1, h2, h3, h4, h5⟩ | ⟨h0, h1⟩
      · have hw := (mem_work g mods a s k).mpr ⟨a', aff, n, _, h1, h2, hnd, by simp [Node.args]⟩
        rcases hi.seen a s k hw with ⟨b, hb⟩ | ⟨t', b, hb, _, hl⟩
        · rw [hnd] at hb; exact absurd hb (by simp)
        · rw [hnd] at hb
          injection hb with hb
          injection hb with hb1 hb2
          subst hb1 hb2
          obtain ⟨l, hl⟩ := hl h3
          refine Or.inr ⟨fun s a aff n g1 g2 => ?_, ?_⟩
          · rw [hnd] at g1
            injection g1 with g1
            injection g1 with g1 _
            subst g1
            rw [hl] at g2
            exact absurd g2 (by simp)
          · rcases hi.linear t l hl with ⟨_, k1⟩ | ⟨i2, s2, u2, a2, n2, b2, k1, k2, k3, k4, k5, k6⟩
            · rw [k1 a s k _ hw hnd] at h3
              exact absurd h3 (by simp)
            · have hu : u2 = k := hp.once u2 k t a2 a l k2 hnd hl
              subst hu
              obtain ⟨a3, aff3, n3, m3, j1, j2, j3, j4⟩ := (mem_work g mods i2 s2 u2).mp k1
              rw [hnd] at j3
              injection j3 with j3
              subst j3
              have hia : i2 = a := List.mem_singleton.mp j4
              subst hia
              rw [h1] at j1
              injection j1 with j1
              injection j1 with j1 _
              subst j1
              rw [h2] at k3
              injection k3 with e1 e2
              subst e1 e2
              rw [hval, hval', h4, h5, reset_norm_true g mods _ st hi s true n b2 h2 k4 h3, reset_linear st t _ k6, h2, hl]
              funext r
              exact merged_row l n b2 k4 k5 (hp.weight s true n h2) (x r)
      · rw [h1] at hval'
        cases em : mods t with
        | norm aff n =>
          by_cases hm : st.merged t = some true
          · exact Or.inl ⟨t, a, aff, n, v a, hnd, em, hm, hval, hval'⟩
          · refine Or.inr ⟨fun s a' aff' n' g1 _ => ?_, ?_⟩
            · rw [hnd] at g1
              injection g1 with g1
              injection g1 with g1 _
              subst g1
              exact hm
            · have hnone : st.merged t = none := by
                cases e : st.merged t with
                | none => rfl
                | some b =>
                  cases b with
                  | true => exact absurd e hm
                  | false => exact absurd e (hf t)
              have hsc : t ∉ st.scaled := fun hs => hi.scaled t hs hnone
              have hr : reset st t = mods t := by
                unfold reset
                rw [hnone, hi.norm t aff n em, em]
                unfold nowBias
                rw [if_neg (by simpa using hsc)]
              rw [hval', hr, ← hval]
        | other inv f =>
          refine Or.inr ⟨fun s a' aff' n' g1 g2 => ?_, ?_⟩
          · rw [hnd] at g1
            injection g1 with g1
            injection g1 with g1 _
            subst g1
            rw [em] at g2
            exact absurd g2 (by simp)
          · rw [hval', hval, reset_other st t inv f (hi.other t inv f em), em]
        | linear l =>
          refine Or.inr ⟨fun s a' aff' n' g1 g2 => ?_, ?_⟩
          · rw [hnd] at g1
            injection g1 with g1
            injection g1 with g1 _
            subst g1
            rw [em] at g2
            exact absurd g2 (by simp)
          · rcases hi.linear t l em with ⟨k1, _⟩ | ⟨i2, s2, u2, a2, n2, b2, k1, k2, k3, k4, k5, k6⟩
            · rw [hval', hval, reset_linear st t l k1, em]
            · exfalso
              have hu : u2 = k := hp.once u2 k t a2 a l k2 hnd em
              subst hu
              obtain ⟨a3, aff3, n3, m3, j1, j2, j3, j4⟩ := (mem_work g mods i2 s2 u2).mp k1
              rw [hnd] at j3
              injection j3 with j3
              subst j3
              have hia : i2 = a := List.mem_singleton.mp j4
              subst hia
              rcases hi.seen i2 s2 u2 k1 with ⟨b, hb⟩ | ⟨t', b, hb, hne, _⟩
              · rw [hnd] at hb; exact absurd hb (by simp)
              · apply h0 s2 a3 aff3 n3 j1 j2
                cases e : st.merged s2 with
                | none => exact absurd e hne
                | some b =>
                  cases b with
                  | true => rfl
                  | false => exact absurd e (hf s2)
  rcases key k hk with ⟨s, a, aff, n, x, h1, h2, _⟩ | h1
  · exact absurd ⟨s, a, aff, n, h1, h2⟩ hn
  · exact h1.2

/-- **C84.**  After merging, a norm that feeds a linear layer only normalises: its weights are one and its bias is zero. -/
theorem C84_norms_reset (g : List (Node (Rows K))) (mods mods' : ℕ → Mod K (Rows K)) (hp : Plain g mods) (h : merge g mods = .ok mods')
    (i u s t a : ℕ) (aff : Bool) (n : Norm K) (hi : g[i]? = some (Node.module s a)) (hs : mods s = .norm aff n) (hu : g[u]? = some (Node.module t i)) :
    aff = true ∧ mods' s = .norm true { n with weight := fun _ => 1, bias := some fun _ => 0 } := by
  obtain ⟨st, hI, hf, rfl⟩ := merge_state g mods mods' hp h
  have hw := (mem_work g mods i s u).mpr ⟨a, aff, n, _, hi, hs, hu, by simp [Node.args]⟩
  rcases hI.seen i s u hw with ⟨b, hb⟩ | ⟨t', b, hb, hne, hl⟩
  · rw [hu] at hb; exact absurd hb (by simp)
  · rw [hu] at hb
    injection hb with hb
    injection hb with hb1 hb2
    subst hb1 hb2
    have hm : st.merged s = some true := by
      cases e : st.merged s with
      | none => exact absurd e hne
      | some b =>
        cases b with
        | true => rfl
        | false => exact absurd e (hf s)
    obtain ⟨l, hl⟩ := hl hm
    rcases hI.linear t l hl with ⟨_, k1⟩ | ⟨i2, s2, u2, a2, n2, b2, k1, k2, k3, k4, k5, k6⟩
    · rw [k1 i s u _ hw hu] at hm
      exact absurd hm (by simp)
    · have hu2 : u2 = u := hp.once u2 u t a2 i l k2 hu hl
      subst hu2
      obtain ⟨a3, aff3, n3, m3, j1, j2, j3, j4⟩ := (mem_work g mods i2 s2 u2).mp k1
      rw [hu] at j3
      injection j3 with j3
      subst j3
      have hia : i2 = i := List.mem_singleton.mp j4
      subst hia
      rw [hi] at j1
      injection j1 with j1
      injection j1 with j1 _
      subst j1
      rw [hs] at k3
      injection k3 with e1 e2
      subst e1 e2
      exact ⟨rfl, reset_norm_true g mods _ st hI s true n b2 hs k4 hm⟩

/-- **C84.**  Merging succeeds if every norm that is called has a weight and a bias, and is read only by linear layers of its size and for its size. -/
theorem C84_succeeds (g : List (Node (Rows K))) (mods : ℕ → Mod K (Rows K)) (hp : Plain g mods)
    (hr : ∀ (i u s a : ℕ) (aff : Bool) (n : Norm K) (m : Node (Rows K)), g[i]? = some (Node.module s a) → mods s = .norm aff n → g[u]? = some m → i ∈ m.args →
      m = .size i ∨ ∃ t l b, m = .module t i ∧ mods t = .linear l ∧ aff = true ∧ n.bias = some b ∧ n.dim = l.inFeatures) :
    ∃ mods', merge g mods = .ok mods' := by
  have key : ∀ (ws done : List (ℕ × ℕ × ℕ)) (st : State K (Rows K)), done ++ ws = work g mods → Inv g mods done st → (∀ t, st.merged t ≠ some false) →
      ∃ st', mergeAll g ws st = .ok st' ∧ ∀ t, st'.merged t ≠ some false := by
    intro ws
    induction ws with
    | nil => exact fun done st _ _ hm => ⟨st, rfl, hm⟩
    | cons w ws ih =>
      intro done st hw hI hm
      obtain ⟨i, t, u⟩ := w
      have hmem : (i, t, u) ∈ work g mods := by rw [← hw]; simp
      have hpass : passes g st.mods u = false := (passes_eq g mods done st hI u).trans (hp.not_passes hmem)
      obtain ⟨a, aff, n, m, g1, g2, g3, g4⟩ := (mem_work g mods i t u).mp hmem
      have hstep : ∃ st1, mergeUser g i t u st = .ok st1 ∧ ∀ t, st1.merged t ≠ some false := by
        unfold mergeUser skip
        rw [if_neg (by rw [hpass]; simp)]
        dsimp only
        rw [g3]
        rcases hr i u t a aff n m g1 g2 g3 g4 with rfl | ⟨t', l, b, rfl, h1, rfl, h2, h3⟩
        · exact ⟨st, rfl, hm⟩
        · dsimp only
          unfold mergeInto
          have hst : ∃ l', st.mods t' = .linear l' ∧ l'.inFeatures = l.inFeatures := by
            rcases hI.linear t' l h1 with ⟨k1, _⟩ | ⟨_, _, _, _, _, _, _, _, _, _, _, k1⟩
            · exact ⟨l, k1, rfl⟩
            · exact ⟨_, k1, rfl⟩
          obtain ⟨l', hl', hf'⟩ := hst
          have hb : ∃ b', nowBias n (decide (t ∈ st.scaled)) = some b' := by
            unfold nowBias
            rw [h2]
            split_ifs
            · exact ⟨_, rfl⟩
            · exact ⟨_, rfl⟩
          obtain ⟨b', hb'⟩ := hb
          rw [hI.norm t true n g2, hl']
          dsimp only
          rw [hb']
          dsimp only
          rw [if_pos (h3.trans hf'.symm)]
          refine ⟨_, rfl, ?_⟩
          intro t2
          dsimp only
          unfold setMerged
          by_cases e : t2 = t
          · subst e
            rw [Function.update_self]
            cases e2 : st.merged t2 with
            | none => simp
            | some c =>
              cases c with
              | true => simp
              | false => exact absurd e2 (hm t2)
          · rw [Function.update_of_ne e]
            exact hm t2
      obtain ⟨st1, e1, hm1⟩ := hstep
      unfold mergeAll
      rw [e1]
      dsimp only
      refine ih (done ++ [(i, t, u)]) st1 (by rw [← hw]; simp) ?_ hm1
      have := mergeStep_inv g mods hp ws done (i, t, u) hw st st1 hI e1
      exact this
  obtain ⟨st, e, hm⟩ := key (work g mods) [] _ rfl (inv_start g mods) (fun t => by simp)
  refine ⟨reset st, ?_⟩
  unfold merge
  rw [e]
  dsimp only
  rw [if_neg]
  rw [List.any_eq_true]
  rintro ⟨w, _, hw⟩
  exact hm _ (by simpa using hw)

/-! ## Examples and disagreements -/

/-- An input, a norm, two linear layers that read it, its size, and the sum of the layers. -/
def exGraph : List (Node (Rows ℚ)) :=
  [.other false (fun _ _ c => if c = 0 then 3 else 5) [], .module 0 0, .module 1 1, .size 1, .module 2 1,
   .other false (fun vs t c => (vs.map fun v => v t c).sum) [2, 4]]

/-- Its modules: the norm only scales, here. -/
def exMods : ℕ → Mod ℚ (Rows ℚ)
  | 0 => .norm true ⟨2, fun x => x, fun c => if c = 0 then 2 else 7, some fun c => if c = 0 then 1 else 4⟩
  | 1 => .linear ⟨1, 2, fun _ i => if i = 0 then 1 else 10, none⟩
  | _ => .linear ⟨1, 2, fun _ i => if i = 0 then 3 else 1, some fun _ => 1⟩

theorem exPlain : Plain exGraph exMods := by
  have cases6 : ∀ (k : ℕ) (n : Node (Rows ℚ)), exGraph[k]? = some n → k < 6 := fun k n h => (List.getElem?_eq_some_iff.mp h).1
  refine ⟨?_, ?_, ?_, ?_⟩
  · intro k n h a ha
    have hk := cases6 k n h
    rcases k with _ | _ | _ | _ | _ | _ | k
    all_goals first
      | omega
      | (injection h with h; subst h; simp [Node.args] at ha; omega)
      | (injection h with h; subst h; simp [Node.args] at ha)
  · intro k k' t a a' l h h' _
    have hk := cases6 k _ h
    have hk' := cases6 k' _ h'
    rcases k with _ | _ | _ | _ | _ | _ | k <;> rcases k' with _ | _ | _ | _ | _ | _ | k'
    all_goals first
      | omega
      | (exfalso; simp [exGraph] at h h'; omega)
      | (exfalso; simp [exGraph] at h h')
  · intro t aff n h c hc
    rcases t with _ | _ | t
    · injection h with _ h
      subst h
      show (if c = 0 then (2 : ℚ) else 7) ≠ 0
      split_ifs <;> norm_num
    · exact absurd h (by simp [exMods])
    · exact absurd h (by simp [exMods])
  · intro i u n _ h _
    have hk := cases6 u n h
    refine ⟨?_, ?_⟩
    · rintro f as rfl
      rcases u with _ | _ | _ | _ | _ | _ | u
      all_goals first
        | omega
        | simp [exGraph] at h
    · rintro t a f rfl
      rcases t with _ | _ | t <;> simp [exMods]

/-- The example meets the hypotheses, merging it succeeds, and the norm is read by linear layers. -/
example : Plain exGraph exMods ∧ ∃ mods', merge exGraph exMods = .ok mods' ∧ ∃ l, mods' 1 = .linear l ∧ l.weight 0 1 = 70 ∧ (l.bias.map (· 0)) = some 41 :=
  ⟨exPlain, _, rfl, _, rfl, by decide +kernel, by decide +kernel⟩

/-- **C84, disagreement.**  If the node after a norm reads it and is a reshaping, merging never returns. -/
theorem C84_reshaping_diverges (input f : List (Rows K) → Rows K) (mods : ℕ → Mod K (Rows K)) (n : Norm K) (aff : Bool) (h : mods 0 = .norm aff n) :
    merge [.other false input [], .module 0 0, .other true f [1], .module 1 2] mods = .error .diverges := by
  have hw : work [.other false input [], .module 0 0, .other true f [1], .module 1 2] mods = (workAt [.other false input [], .module 0 0, .other true f [1], .module 1 2] mods 0) ++
      ((workAt [.other false input [], .module 0 0, .other true f [1], .module 1 2] mods 1) ++
      ((workAt [.other false input [], .module 0 0, .other true f [1], .module 1 2] mods 2) ++
      ((workAt [.other false input [], .module 0 0, .other true f [1], .module 1 2] mods 3) ++ []))) := rfl
  have h1 : workAt [.other false input [], .module 0 0, .other true f [1], .module 1 2] mods 1 = [(1, 0, 2)] := by
    unfold workAt
    simp only [List.getElem?_cons_succ, List.getElem?_cons_zero]
    rw [h]
    rfl
  unfold merge
  rw [hw, h1]
  rfl

/-- **C84, disagreement.**  If a linear layer follows the norm and a reshaping reads the norm too, the linear layer is merged into twice and what is behind the reshaping is not: the graph then
computes something else.  Here a norm multiplies by two, and both linear layers return what they are given. -/
theorem C84_merged_twice : ∃ (g : List (Node (Rows ℚ))) (mods mods' : ℕ → Mod ℚ (Rows ℚ)) (size v v' : ℕ → Rows ℚ),
    merge g mods = .ok mods' ∧ Runs g mods size v ∧ Runs g mods' size v' ∧
      g[2]? = some (.module 1 1) ∧ v 2 0 0 = 2 ∧ v' 2 0 0 = 4 ∧ g[4]? = some (.module 2 3) ∧ v 4 0 0 = 2 ∧ v' 4 0 0 = 1 := by
  let id1 : Linear ℚ := ⟨1, 1, fun _ _ => 1, none⟩
  let mods : ℕ → Mod ℚ (Rows ℚ) := fun t => if t = 0 then .norm true ⟨1, fun x => x, fun _ => 2, some fun _ => 0⟩ else .linear id1
  let g : List (Node (Rows ℚ)) := [.other false (fun _ _ _ => 1) [], .module 0 0, .module 1 1, .other true (fun vs => vs.getD 0 fun _ _ => 0) [1], .module 2 3]
  have run : ∀ m : ℕ → Mod ℚ (Rows ℚ), Runs g m (fun _ _ _ => 0) fun k =>
      let v0 : Rows ℚ := fun _ _ => 1
      let v1 := modValue (m 0) v0
      if k = 0 then v0 else if k = 1 then v1 else if k = 2 then modValue (m 1) v1 else if k = 3 then v1 else modValue (m 2) v1 := by
    intro m k n hn
    have hk : k < 5 := (List.getElem?_eq_some_iff.mp hn).1
    rcases k with _ | _ | _ | _ | _ | k
    all_goals first
      | omega
      | (injection hn with hn; subst hn; rfl)
  exact ⟨g, mods, _, _, _, _, rfl, run mods, run _, rfl, by decide +kernel, by decide +kernel, rfl, by decide +kernel, by decide +kernel⟩

end Brevitas.LnMerge
