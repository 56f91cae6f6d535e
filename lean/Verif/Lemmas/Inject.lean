import Mathlib.Data.List.Basic
import Mathlib.Order.Nat
import Mathlib.Tactic.ByContra
import Verif.Model.Inject

/-!
# Correctness of attribute resolution
-/

set_option linter.unusedSectionVars false

namespace Brevitas

open Spec

variable {N S V : Type*} [DecidableEq N]

theorem resolves_name_iff {L : SpecLang N S V} {D : N → Option S} {n : N} {v : V} :
    Resolves L D (.inl n) v ↔ ∃ s, D n = some s ∧ Resolves L D (.inr s) v := by
  constructor
  · intro h; cases h with | name h1 h2 => exact ⟨_, h1, h2⟩
  · rintro ⟨s, h1, h2⟩; exact .name h1 h2

/-- Values are unique. -/
theorem Spec.Resolves.unique {L : SpecLang N S V} {D : N → Option S} {x : N ⊕ S} {v v' : V} (h : Resolves L D x v) (h' : Resolves L D x v') :
    v = v' := by
  have args : ∀ {s : S} {k k' : N → Option V},
      (∀ a w, k a = some w → Resolves L D (.inl a) w) → (∀ a w, k a = some w → ∀ w', Resolves L D (.inl a) w' → w = w') →
      (∀ ad ∈ L.args s, k ad.1 = none → ad.2 = true ∧ D ad.1 = none) → (∀ a, (∀ ad ∈ L.args s, ad.1 ≠ a) → k a = none) →
      (∀ a w, k' a = some w → Resolves L D (.inl a) w) →
      (∀ ad ∈ L.args s, k' ad.1 = none → ad.2 = true ∧ D ad.1 = none) → (∀ a, (∀ ad ∈ L.args s, ad.1 ≠ a) → k' a = none) → k = k' := by
    intro s k k' h1 hu h2 h3 h1' h2' h3'
    funext a
    by_cases ha : ∀ ad ∈ L.args s, ad.1 ≠ a
    · rw [h3 a ha, h3' a ha]
    · push Not at ha
      obtain ⟨ad, had, rfl⟩ := ha
      rcases hk : k ad.1 with _ | w <;> rcases hk' : k' ad.1 with _ | w'
      · rfl
      · obtain ⟨s, hs, _⟩ := resolves_name_iff.mp (h1' _ _ hk')
        rw [(h2 ad had hk).2] at hs; cases hs
      · obtain ⟨s, hs, _⟩ := resolves_name_iff.mp (h1 _ _ hk)
        rw [(h2' ad had hk').2] at hs; cases hs
      · rw [hu _ _ hk w' (h1' _ _ hk')]
  induction h generalizing v' with
  | name h1 _ ih =>
    obtain ⟨s', h1', h2'⟩ := resolves_name_iff.mp h'
    rw [h1, Option.some.injEq] at h1'
    subst h1'
    exact ih h2'
  | value k h1 h2 h3 h4 ih =>
    cases h' with
    | value k' h1' h2' h3' h4' =>
      have := args h1 (fun a w hk w' hw' => ih a w hk hw') h2 h3 h1' h2' h3'
      subst this
      rw [h4] at h4'; simpa using h4'
    | other k' h1' h2' h3' h4' h5' =>
      have := args h1 (fun a w hk w' hw' => ih a w hk hw') h2 h3 h1' h2' h3'
      subst this
      rw [h4] at h4'; simp at h4'
  | other k h1 h2 h3 h4 _ ih ih2 =>
    cases h' with
    | value k' h1' h2' h3' h4' =>
      have := args h1 (fun a w hk w' hw' => ih a w hk hw') h2 h3 h1' h2' h3'
      subst this
      rw [h4] at h4'; simp at h4'
    | other k' h1' h2' h3' h4' h5' =>
      have := args h1 (fun a w hk w' hw' => ih a w hk hw') h2 h3 h1' h2' h3'
      subst this
      rw [h4] at h4'
      simp only [Option.some.injEq, Sum.inr.injEq] at h4'
      subst h4'
      exact ih2 h5'

/-- Everything cached is right, everything else is still to be resolved. -/
structure ResolverInv (L : SpecLang N S V) (D : N → Option S) (st : ResolverState N S V) : Prop where
  sound : ∀ n v, st.cache n = some v → Resolves L D (.inl n) v
  missing : ∀ n, st.cached n = true → st.cache n = none → D n = none
  depsNone : ∀ n, st.deps n = none ↔ D n = none
  depsSound : ∀ n s v, st.deps n = some s → Resolves L D (.inr s) v → Resolves L D (.inl n) v

/-- The keyword arguments the resolver passes. -/
def resolverKwargs (L : SpecLang N S V) (st : ResolverState N S V) (s : S) : N → Option V :=
  fun a => if (L.args s).any (fun ad => ad.1 == a) then st.cache a else none

theorem resolverKwargs_mem {L : SpecLang N S V} {st : ResolverState N S V} {s : S} {ad : N × Bool} (h : ad ∈ L.args s) :
    resolverKwargs L st s ad.1 = st.cache ad.1 := by
  unfold resolverKwargs
  rw [if_pos]
  simp only [List.any_eq_true, beq_iff_eq]
  exact ⟨ad, h, rfl⟩

theorem resolverKwargs_some {L : SpecLang N S V} {st : ResolverState N S V} {s : S} {a : N} {w : V} (h : resolverKwargs L st s a = some w) :
    st.cache a = some w := by
  unfold resolverKwargs at h
  split_ifs at h
  exact h

theorem resolverKwargs_other {L : SpecLang N S V} {st : ResolverState N S V} {s : S} {a : N} (h : ∀ ad ∈ L.args s, ad.1 ≠ a) :
    resolverKwargs L st s a = none := by
  unfold resolverKwargs
  rw [if_neg]
  simp only [List.any_eq_true, beq_iff_eq, not_exists, not_and]
  exact h

theorem find_none_cached {L : SpecLang N S V} {st : ResolverState N S V} {s : S}
    (h : (L.args s).find? (fun ad => !st.cached ad.1) = none) : ∀ ad ∈ L.args s, st.cached ad.1 = true := by
  intro ad had
  have := List.find?_eq_none.mp h ad had
  simpa using this

theorem ResolverInv.step {L : SpecLang N S V} (hL : StrictLang L) {D : N → Option S} {st st' : ResolverState N S V}
    (h : ResolverInv L D st) (hs : resolverStep L st = some st') : ResolverInv L D st' := by
  unfold resolverStep at hs
  rcases hd : st.deps st.current with _ | s
  · rw [hd] at hs
    simp only at hs
    split_ifs at hs with hdef
    rcases hst : st.stack with _ | ⟨top, rest⟩
    · rw [hst] at hs; simp at hs
    · rw [hst] at hs
      simp only [Option.some.injEq] at hs
      subst hs
      refine ⟨h.sound, fun n hn hc => ?_, h.depsNone, h.depsSound⟩
      by_cases he : n = st.current
      · subst he; exact (h.depsNone _).mp hd
      · simp only [Function.update_of_ne he] at hn
        exact h.missing n hn hc
  · rw [hd] at hs
    simp only at hs
    rcases hf : (L.args s).find? (fun ad => !st.cached ad.1) with _ | ad
    · rw [hf] at hs
      simp only at hs
      have hcd := find_none_cached hf
      change (match L.apply s (resolverKwargs L st s) with | none => none | some (.inr s') => _ | some (.inl dependency) => _) = _ at hs
      have p1 : ∀ a w, resolverKwargs L st s a = some w → Resolves L D (.inl a) w := fun a w hk => h.sound a w (resolverKwargs_some hk)
      have p2 : L.apply s (resolverKwargs L st s) ≠ none →
          ∀ ad ∈ L.args s, resolverKwargs L st s ad.1 = none → ad.2 = true ∧ D ad.1 = none := by
        intro hne ad had hk
        constructor
        · by_contra hb
          exact hne (hL s _ ⟨ad, had, by simpa using hb, hk⟩)
        · rw [resolverKwargs_mem had] at hk
          exact h.missing _ (hcd ad had) hk
      have p3 : ∀ a, (∀ ad ∈ L.args s, ad.1 ≠ a) → resolverKwargs L st s a = none := fun a ha => resolverKwargs_other ha
      rcases ha : L.apply s (resolverKwargs L st s) with _ | v | s'
      · rw [ha] at hs; simp at hs
      · rw [ha] at hs
        simp only at hs
        have hv : Resolves L D (.inl st.current) v := h.depsSound _ _ _ hd (.value _ p1 (p2 (by rw [ha]; simp)) p3 ha)
        rcases hst : st.stack with _ | ⟨top, rest⟩
        · rw [hst] at hs; simp at hs
        · rw [hst] at hs
          simp only [Option.some.injEq] at hs
          subst hs
          refine ⟨fun n w hn => ?_, fun n hn hc => ?_, h.depsNone, h.depsSound⟩
          · by_cases he : n = st.current
            · subst he
              simp only [Function.update_self, Option.some.injEq] at hn
              exact hn ▸ hv
            · simp only [Function.update_of_ne he] at hn
              exact h.sound n w hn
          · by_cases he : n = st.current
            · subst he; simp at hc
            · simp only [Function.update_of_ne he] at hn hc
              exact h.missing n hn hc
      · rw [ha] at hs
        simp only [Option.some.injEq] at hs
        subst hs
        refine ⟨h.sound, h.missing, fun n => ?_, fun n s1 v hn hr => ?_⟩
        · by_cases he : n = st.current
          · subst he
            have := (h.depsNone st.current).not.mp (by rw [hd]; simp)
            simp [this]
          · simp only [Function.update_of_ne he]; exact h.depsNone n
        · by_cases he : n = st.current
          · subst he
            simp only [Function.update_self, Option.some.injEq] at hn
            subst hn
            exact h.depsSound _ _ _ hd (.other _ p1 (p2 (by rw [ha]; simp)) p3 ha hr)
          · simp only [Function.update_of_ne he] at hn
            exact h.depsSound n s1 v hn hr
    · rw [hf] at hs
      simp only [Option.some.injEq] at hs
      subst hs
      exact ⟨h.sound, h.missing, h.depsNone, h.depsSound⟩

theorem resolverLoop_sound {L : SpecLang N S V} (hL : StrictLang L) {D : N → Option S} {attr : N} (fuel : ℕ) :
    ∀ {st : ResolverState N S V}, ResolverInv L D st → ∀ {v deps}, resolverLoop L attr fuel st = some (some v, deps) →
    Resolves L D (.inl attr) v := by
  induction fuel with
  | zero =>
    intro st h v deps hr
    unfold resolverLoop at hr
    rcases hc : st.cache attr with _ | w
    · rw [hc] at hr; simp at hr
    · rw [hc] at hr
      simp only [Option.some.injEq, Prod.mk.injEq] at hr
      exact hr.1 ▸ h.sound _ _ hc
  | succ fuel ih =>
    intro st h v deps hr
    unfold resolverLoop at hr
    rcases hc : st.cache attr with _ | w
    · rw [hc] at hr
      simp only at hr
      rcases hs : resolverStep L st with _ | st'
      · rw [hs] at hr; simp at hr
      · rw [hs] at hr
        exact ih (h.step hL hs) hr
    · rw [hc] at hr
      simp only [Option.some.injEq, Prod.mk.injEq] at hr
      exact hr.1 ▸ h.sound _ _ hc

theorem resolverLoop_step {L : SpecLang N S V} {attr : N} {st st' : ResolverState N S V} (hc : st.cache attr = none)
    (hs : resolverStep L st = some st') (fuel : ℕ) : resolverLoop L attr (fuel + 1) st = resolverLoop L attr fuel st' := by
  rw [resolverLoop, hc]
  simp only [hs]

/-- `Reaches st st'`: the loop gets from `st` to `st'`. -/
def Reaches (L : SpecLang N S V) (attr : N) (st st' : ResolverState N S V) : Prop :=
  ∃ j, ∀ fuel, resolverLoop L attr (fuel + j) st = resolverLoop L attr fuel st'

theorem Reaches.refl {L : SpecLang N S V} {attr : N} (st : ResolverState N S V) : Reaches L attr st st := ⟨0, fun _ => rfl⟩

theorem Reaches.trans {L : SpecLang N S V} {attr : N} {a b c : ResolverState N S V} (h1 : Reaches L attr a b) (h2 : Reaches L attr b c) :
    Reaches L attr a c := by
  obtain ⟨i, hi⟩ := h1
  obtain ⟨j, hj⟩ := h2
  refine ⟨j + i, fun fuel => ?_⟩
  rw [← Nat.add_assoc, hi, hj]

theorem Reaches.step {L : SpecLang N S V} {attr : N} {st st' : ResolverState N S V} (hc : st.cache attr = none)
    (hs : resolverStep L st = some st') : Reaches L attr st st' := ⟨1, fun fuel => resolverLoop_step hc hs fuel⟩

/-- What is known before attribute `n` is worked on. -/
structure Ready (L : SpecLang N S V) (D : N → Option S) (rank : N → ℕ) (attr n top : N) (rest : List N) (st : ResolverState N S V) :
    Prop where
  inv : ResolverInv L D st
  current : st.current = n
  stack : st.stack = top :: rest
  uncached : st.cached n = false
  below : ∀ a, rank a < rank n → st.cached a = false → st.deps a = D a
  le : rank n ≤ rank attr
  notDone : st.cache attr = none

/-- What is known when attribute `n` has been resolved. -/
structure Finished (L : SpecLang N S V) (D : N → Option S) (rank : N → ℕ) (n top : N) (rest : List N) (v : V)
    (st st' : ResolverState N S V) : Prop where
  inv : ResolverInv L D st'
  current : st'.current = top
  stack : st'.stack = rest
  done : st'.cached n = true
  value : st'.cache n = some v
  mono : ∀ a, st.cached a = true → st'.cached a = true
  frame : ∀ a, a ≠ n → rank n ≤ rank a → st'.cached a = st.cached a ∧ st'.cache a = st.cache a ∧ st'.deps a = st.deps a
  below : ∀ a, rank a < rank n → st'.cached a = false → st'.deps a = D a

/-- One more cached argument. -/
theorem filter_uncached_lt {L : SpecLang N S V} {st st2 : ResolverState N S V} {s : S} {ad : N × Bool}
    (hmono2 : ∀ a, st.cached a = true → st2.cached a = true) (had : ad ∈ L.args s) (huc : st.cached ad.1 = false)
    (hdone2 : st2.cached ad.1 = true) :
    ((L.args s).filter (fun b => !st2.cached b.1)).length < ((L.args s).filter (fun b => !st.cached b.1)).length := by
  have hsub : (L.args s).filter (fun b => !st2.cached b.1) =
      ((L.args s).filter (fun b => !st.cached b.1)).filter (fun b => !st2.cached b.1) := by
    rw [List.filter_filter]
    apply List.filter_congr
    intro b _
    rcases hb : st2.cached b.1 with _ | _
    · have : st.cached b.1 = false := by
        by_contra hb'
        have := hmono2 b.1 (by simpa using hb')
        rw [hb] at this; cases this
      simp [this]
    · simp
  rw [hsub]
  have hmem : ad ∈ (L.args s).filter (fun b => !st.cached b.1) := List.mem_filter.mpr ⟨had, by simp [huc]⟩
  have hlt' : (((L.args s).filter (fun b => !st.cached b.1)).filter (fun b => !st2.cached b.1)).length <
      ((L.args s).filter (fun b => !st.cached b.1)).length := by
    rcases Nat.lt_or_ge (((L.args s).filter (fun b => !st.cached b.1)).filter (fun b => !st2.cached b.1)).length
      ((L.args s).filter (fun b => !st.cached b.1)).length with h | h
    · exact h
    · have heq := List.filter_eq_self.mp (List.filter_sublist.eq_of_length_le h) ad hmem
      rw [hdone2] at heq; simp at heq
  exact hlt'

/-- All arguments of a specification get resolved. -/
theorem args_ready {L : SpecLang N S V} (hL : StrictLang L) {D : N → Option S} {rank : N → ℕ} {attr n top : N} {rest : List N} {s : S}
    {k : N → Option V} (hrank : ∀ ad ∈ L.args s, rank ad.1 < rank n)
    (h1 : ∀ a w, k a = some w → ∀ top rest st, Ready L D rank attr a top rest st → st.deps a = D a →
      ∃ st', Reaches L attr st st' ∧ Finished L D rank a top rest w st st')
    (h2 : ∀ ad ∈ L.args s, k ad.1 = none → ad.2 = true ∧ D ad.1 = none) :
    ∀ (m : ℕ) (st : ResolverState N S V), ((L.args s).filter (fun ad => !st.cached ad.1)).length ≤ m →
      Ready L D rank attr n top rest st → st.deps n = some s →
      ∃ st', Reaches L attr st st' ∧ Ready L D rank attr n top rest st' ∧ st'.deps n = some s ∧
        (∀ ad ∈ L.args s, st'.cached ad.1 = true) ∧ (∀ a, st.cached a = true → st'.cached a = true) ∧
        (∀ a, a ≠ n → rank n ≤ rank a → st'.cached a = st.cached a ∧ st'.cache a = st.cache a ∧ st'.deps a = st.deps a) := by
  intro m
  induction m with
  | zero =>
    intro st hm hr hd
    refine ⟨st, .refl st, hr, hd, fun ad had => ?_, fun _ h => h, fun _ _ _ => ⟨rfl, rfl, rfl⟩⟩
    have h0 : (L.args s).filter (fun ad => !st.cached ad.1) = [] := List.length_eq_zero_iff.mp (Nat.le_zero.mp hm)
    have := List.filter_eq_nil_iff.mp h0 ad had
    simpa using this
  | succ m ih =>
    intro st hm hr hd
    rcases hf : (L.args s).find? (fun ad => !st.cached ad.1) with _ | ad
    · exact ⟨st, .refl st, hr, hd, find_none_cached hf, fun _ h => h, fun _ _ _ => ⟨rfl, rfl, rfl⟩⟩
    · have had : ad ∈ L.args s := List.mem_of_find?_eq_some hf
      have huc : st.cached ad.1 = false := by simpa using List.find?_some hf
      have hlt := hrank ad had
      -- the argument becomes the current attribute
      obtain ⟨st1, hst1⟩ : ∃ st1 : ResolverState N S V,
        st1 = { st with stack := st.current :: st.stack, current := ad.1, haveDefault := ad.2 } := ⟨_, rfl⟩
      have hstep1 : resolverStep L st = some st1 := by
        unfold resolverStep
        rw [hr.current, hd]
        simp only [hf]
        rw [hst1, hr.current]
      have hreach1 := Reaches.step hr.notDone hstep1
      have hinv1 := hr.inv.step hL hstep1
      -- it ends up cached, with the current attribute on top again
      obtain ⟨st2, hreach2, hinv2, hcur2, hstk2, hdone2, hmono2, hframe2, hbelow2⟩ : ∃ st2 : ResolverState N S V, Reaches L attr st1 st2 ∧
          ResolverInv L D st2 ∧ st2.current = n ∧ st2.stack = top :: rest ∧ st2.cached ad.1 = true ∧
          (∀ a, st.cached a = true → st2.cached a = true) ∧
          (∀ a, a ≠ ad.1 → rank ad.1 ≤ rank a → st2.cached a = st.cached a ∧ st2.cache a = st.cache a ∧ st2.deps a = st.deps a) ∧
          (∀ a, rank a < rank ad.1 → st2.cached a = false → st2.deps a = D a) := by
        rcases hk : k ad.1 with _ | w
        · obtain ⟨hb, hD⟩ := h2 ad had hk
          have hnone : st1.deps st1.current = none := by
            rw [hst1]
            exact (hr.inv.depsNone _).mpr hD
          obtain ⟨st2, hst2⟩ : ∃ st2 : ResolverState N S V,
            st2 = { st1 with cached := Function.update st1.cached st1.current true, current := n, stack := top :: rest, haveDefault := false } :=
            ⟨_, rfl⟩
          have hstep2 : resolverStep L st1 = some st2 := by
            unfold resolverStep
            rw [hnone]
            have e1 : st1.haveDefault = true := by rw [hst1]; exact hb
            have e2 : st1.stack = n :: top :: rest := by rw [hst1]; simp only [hr.current, hr.stack]
            simp only [e1, if_true, e2]
            rw [hst2]
          refine ⟨st2, .step (by rw [hst1]; exact hr.notDone) hstep2, hinv1.step hL hstep2, by rw [hst2], by rw [hst2], ?_, ?_, ?_, ?_⟩
          · rw [hst2, hst1]; simp
          · intro a ha
            rw [hst2, hst1]
            by_cases he : a = ad.1
            · subst he; simp
            · simpa [Function.update_of_ne he] using ha
          · intro a hne _
            rw [hst2, hst1]
            simp [Function.update_of_ne hne]
          · intro a hlt' hca
            have hne : a ≠ ad.1 := fun he => by subst he; exact absurd hlt' (Nat.lt_irrefl _)
            rw [hst2, hst1] at hca ⊢
            simp only [Function.update_of_ne hne] at hca
            exact hr.below a (hlt'.trans hlt) hca
        · have hready : Ready L D rank attr ad.1 n (top :: rest) st1 := by
            refine ⟨hinv1, by rw [hst1], by rw [hst1]; simp only [hr.current, hr.stack], by rw [hst1]; exact huc, ?_,
              hlt.le.trans hr.le, by rw [hst1]; exact hr.notDone⟩
            intro a ha hca
            rw [hst1] at hca ⊢
            exact hr.below a (ha.trans hlt) hca
          obtain ⟨st2, hreach, hfin⟩ := h1 ad.1 w hk n (top :: rest) st1 hready (by rw [hst1]; exact hr.below _ hlt huc)
          refine ⟨st2, hreach, hfin.inv, hfin.current, hfin.stack, hfin.done, ?_, ?_, hfin.below⟩
          · intro a ha; exact hfin.mono a (by rw [hst1]; exact ha)
          · intro a hne hle
            have := hfin.frame a hne hle
            rw [hst1] at this
            exact this
      have hnn : n ≠ ad.1 := fun he => by rw [← he] at hlt; exact absurd hlt (Nat.lt_irrefl _)
      have han : attr ≠ ad.1 := fun he => by
        have := hr.le
        rw [he] at this
        exact absurd (hlt.trans_le this) (Nat.lt_irrefl _)
      have hfn := hframe2 n hnn hlt.le
      have hfa := hframe2 attr han (hlt.le.trans hr.le)
      have hready2 : Ready L D rank attr n top rest st2 := by
        refine ⟨hinv2, hcur2, hstk2, by rw [hfn.1]; exact hr.uncached, ?_, hr.le, by rw [hfa.2.1]; exact hr.notDone⟩
        intro a ha hca
        by_cases hcmp : rank a < rank ad.1
        · exact hbelow2 a hcmp hca
        · have hne : a ≠ ad.1 := fun he => by rw [he, hdone2] at hca; cases hca
          have := hframe2 a hne (Nat.le_of_not_lt hcmp)
          rw [this.2.2]
          exact hr.below a ha (by rw [← this.1]; exact hca)
      have hcount : ((L.args s).filter (fun ad => !st2.cached ad.1)).length ≤ m := by
        have := filter_uncached_lt hmono2 had huc hdone2
        omega
      obtain ⟨st3, hreach3, hready3, hd3, hc3, hm3, hf3⟩ := ih st2 hcount hready2 (by rw [hfn.2.2]; exact hd)
      refine ⟨st3, (hreach1.trans hreach2).trans hreach3, hready3, hd3, hc3, fun a ha => hm3 a (hmono2 a ha), fun a hne hle => ?_⟩
      have hne' : a ≠ ad.1 := fun he => by
        rw [he] at hle
        exact absurd (hlt.trans_le hle) (Nat.lt_irrefl _)
      have e3 := hf3 a hne hle
      have e2 := hframe2 a hne' (hlt.le.trans hle)
      exact ⟨e3.1.trans e2.1, e3.2.1.trans e2.2.1, e3.2.2.trans e2.2.2⟩

/-- With all arguments cached, the resolver passes the arguments of the specification. -/
theorem kwargs_eq {L : SpecLang N S V} {D : N → Option S} {st : ResolverState N S V} (hinv : ResolverInv L D st) {s : S} {k : N → Option V}
    (h1 : ∀ a w, k a = some w → Resolves L D (.inl a) w)
    (h2 : ∀ ad ∈ L.args s, k ad.1 = none → ad.2 = true ∧ D ad.1 = none)
    (h3 : ∀ a, (∀ ad ∈ L.args s, ad.1 ≠ a) → k a = none)
    (hc : ∀ ad ∈ L.args s, st.cached ad.1 = true) : resolverKwargs L st s = k := by
  funext a
  by_cases ha : ∀ ad ∈ L.args s, ad.1 ≠ a
  · rw [h3 a ha, resolverKwargs_other ha]
  · push Not at ha
    obtain ⟨ad, had, rfl⟩ := ha
    rw [resolverKwargs_mem had]
    rcases hk : st.cache ad.1 with _ | w <;> rcases hk' : k ad.1 with _ | w'
    · rfl
    · have hD := hinv.missing _ (hc ad had) hk
      obtain ⟨s, hs, _⟩ := resolves_name_iff.mp (h1 _ _ hk')
      rw [hD] at hs; cases hs
    · obtain ⟨s, hs, _⟩ := resolves_name_iff.mp (hinv.sound _ _ hk)
      rw [(h2 ad had hk').2] at hs; cases hs
    · rw [(hinv.sound _ _ hk).unique (h1 _ _ hk')]

/-- The loop resolves every attribute that has a value. -/
theorem resolves_reaches {L : SpecLang N S V} (hL : StrictLang L) {D : N → Option S} {rank : N → ℕ}
    (hrank : ∀ n s, SpecFor L D n s → ∀ ad ∈ L.args s, rank ad.1 < rank n) {attr : N} {x : N ⊕ S} {v : V} (h : Resolves L D x v) :
    match x with
    | .inl n => ∀ top rest st, Ready L D rank attr n top rest st → st.deps n = D n →
        ∃ st', Reaches L attr st st' ∧ Finished L D rank n top rest v st st'
    | .inr s => ∀ n top rest st, SpecFor L D n s → Ready L D rank attr n top rest st → st.deps n = some s →
        ∃ st', Reaches L attr st st' ∧ Finished L D rank n top rest v st st' := by
  induction h with
  | name h1 _ ih =>
    intro top rest st hr hd
    exact ih _ top rest st (.given h1) hr (by rw [hd, h1])
  | @value s v k h1 h2 h3 h4 ih =>
    intro n top rest st hsf hr hd
    obtain ⟨st1, hreach, hr1, hd1, hc1, hm1, hf1⟩ := args_ready hL (hrank n s hsf) (fun a w hk => ih a w hk) h2 _ st (Nat.le_refl _) hr hd
    have hk := kwargs_eq hr1.inv h1 h2 h3 hc1
    have hfind : (L.args s).find? (fun ad => !st1.cached ad.1) = none := by
      rw [List.find?_eq_none]
      intro ad had
      simp [hc1 ad had]
    obtain ⟨st2, hst2⟩ : ∃ st2 : ResolverState N S V, st2 = { st1 with
            cache := Function.update st1.cache st1.current (some v)
            cached := Function.update st1.cached st1.current true
            current := top
            stack := rest
            haveDefault := false } := ⟨_, rfl⟩
    have hstep : resolverStep L st1 = some st2 := by
      unfold resolverStep
      rw [hr1.current, hd1]
      simp only [hfind]
      change (match L.apply s (resolverKwargs L st1 s) with | none => none | some (.inr s') => _ | some (.inl dependency) => _) = _
      rw [hk, h4]
      simp only [hr1.stack]
      rw [hst2, hr1.current]
    refine ⟨st2, hreach.trans (.step hr1.notDone hstep), ⟨hr1.inv.step hL hstep, by rw [hst2], by rw [hst2], ?_, ?_, ?_, ?_, ?_⟩⟩
    · rw [hst2, hr1.current]; simp
    · rw [hst2, hr1.current]; simp
    · intro a ha
      rw [hst2, hr1.current]
      by_cases he : a = n
      · subst he; simp
      · simpa [Function.update_of_ne he] using hm1 a ha
    · intro a hne hle
      rw [hst2, hr1.current]
      simp only [Function.update_of_ne hne]
      exact hf1 a hne hle
    · intro a hlt hca
      have hne : a ≠ n := fun he => by subst he; exact absurd hlt (Nat.lt_irrefl _)
      rw [hst2, hr1.current] at hca
      rw [hst2]
      simp only [Function.update_of_ne hne] at hca
      exact hr1.below a hlt hca
  | @other s s' v k h1 h2 h3 h4 _ ih ih2 =>
    intro n top rest st hsf hr hd
    obtain ⟨st1, hreach, hr1, hd1, hc1, hm1, hf1⟩ := args_ready hL (hrank n s hsf) (fun a w hk => ih a w hk) h2 _ st (Nat.le_refl _) hr hd
    have hk := kwargs_eq hr1.inv h1 h2 h3 hc1
    have hfind : (L.args s).find? (fun ad => !st1.cached ad.1) = none := by
      rw [List.find?_eq_none]
      intro ad had
      simp [hc1 ad had]
    obtain ⟨st2, hst2⟩ : ∃ st2 : ResolverState N S V, st2 = { st1 with
          deps := Function.update st1.deps st1.current (some s')
          replaced := Function.update st1.replaced st1.current (some s) } := ⟨_, rfl⟩
    have hstep : resolverStep L st1 = some st2 := by
      unfold resolverStep
      rw [hr1.current, hd1]
      simp only [hfind]
      change (match L.apply s (resolverKwargs L st1 s) with | none => none | some (.inr s') => _ | some (.inl dependency) => _) = _
      rw [hk, h4]
      simp only
      rw [hst2, hr1.current]
    have hr2 : Ready L D rank attr n top rest st2 := by
      refine ⟨hr1.inv.step hL hstep, by rw [hst2]; exact hr1.current, by rw [hst2]; exact hr1.stack, by rw [hst2]; exact hr1.uncached, ?_,
        hr1.le, by rw [hst2]; exact hr1.notDone⟩
      intro a hlt hca
      have hne : a ≠ n := fun he => by subst he; exact absurd hlt (Nat.lt_irrefl _)
      rw [hst2] at hca
      rw [hst2, hr1.current]
      simp only [Function.update_of_ne hne]
      exact hr1.below a hlt hca
    obtain ⟨st3, hreach3, hfin⟩ := ih2 n top rest st2 (.other hsf h4) hr2 (by rw [hst2, hr1.current]; simp)
    refine ⟨st3, (hreach.trans (.step hr1.notDone hstep)).trans hreach3,
      ⟨hfin.inv, hfin.current, hfin.stack, hfin.done, hfin.value, fun a ha => ?_, fun a hne hle => ?_, hfin.below⟩⟩
    · apply hfin.mono a
      rw [hst2]
      exact hm1 a ha
    · have e := hfin.frame a hne hle
      have e1 := hf1 a hne hle
      rw [hst2, hr1.current] at e
      simp only [Function.update_of_ne hne] at e
      exact ⟨e.1.trans e1.1, e.2.1.trans e1.2.1, e.2.2.trans e1.2.2⟩

/-- The loop ends, with a value or an exception. -/
def Halts (L : SpecLang N S V) (attr : N) (st : ResolverState N S V) : Prop := ∃ j r, resolverLoop L attr j st = some r

theorem Reaches.halts {L : SpecLang N S V} {attr : N} {st st' : ResolverState N S V} (h : Reaches L attr st st') (h' : Halts L attr st') :
    Halts L attr st := by
  obtain ⟨i, hi⟩ := h
  obtain ⟨j, r, hj⟩ := h'
  exact ⟨j + i, r, by rw [hi, hj]⟩

theorem resolverLoop_done {L : SpecLang N S V} {attr : N} {st : ResolverState N S V} {v : V} (h : st.cache attr = some v) (fuel : ℕ) :
    resolverLoop L attr fuel st = some (some v, fun n => (st.replaced n).or (st.deps n)) := by
  cases fuel <;> simp only [resolverLoop, h]

theorem halts_of_done {L : SpecLang N S V} {attr : N} {st : ResolverState N S V} {v : V} (h : st.cache attr = some v) : Halts L attr st := by
  exact ⟨0, _, resolverLoop_done h 0⟩

theorem halts_of_raise {L : SpecLang N S V} {attr : N} {st : ResolverState N S V} (h : resolverStep L st = none) : Halts L attr st := by
  rcases hc : st.cache attr with _ | v
  · refine ⟨1, (none, st.deps), ?_⟩
    rw [resolverLoop, hc]
    simp only [h]
  · exact halts_of_done hc

/-- More iterations do not change the outcome. -/
theorem resolverLoop_mono {L : SpecLang N S V} {attr : N} (j : ℕ) : ∀ {st : ResolverState N S V} {r}, resolverLoop L attr j st = some r →
    ∀ i, resolverLoop L attr (j + i) st = some r := by
  induction j with
  | zero =>
    intro st r h i
    rcases hc : st.cache attr with _ | v
    · rw [resolverLoop, hc] at h; simp at h
    · rw [resolverLoop_done hc] at h ⊢
      exact h
  | succ j ih =>
    intro st r h i
    rcases hc : st.cache attr with _ | v
    · rw [resolverLoop, hc] at h
      rw [Nat.add_right_comm, resolverLoop, hc]
      rcases hs : resolverStep L st with _ | st'
      · simp only [hs] at h ⊢; exact h
      · simp only [hs] at h ⊢; exact ih h i
    · rw [resolverLoop_done hc] at h ⊢
      exact h

/-- What is known when attribute `n` has been left, with or without a value. -/
structure Left (L : SpecLang N S V) (D : N → Option S) (rank : N → ℕ) (n top : N) (rest : List N) (st st' : ResolverState N S V) : Prop where
  specs : ∀ a s, st'.deps a = some s → SpecFor L D a s
  current : st'.current = top
  stack : st'.stack = rest
  done : st'.cached n = true
  mono : ∀ a, st.cached a = true → st'.cached a = true
  frame : ∀ a, a ≠ n → rank n ≤ rank a → st'.deps a = st.deps a
  value : st.deps n ≠ none → st'.cache n ≠ none

theorem resolver_leaves {L : SpecLang N S V} {D : N → Option S} {rank : N → ℕ}
    (hrank : ∀ n s, SpecFor L D n s → ∀ ad ∈ L.args s, rank ad.1 < rank n)
    (hwf : WellFounded fun s' s : S => ∃ k, L.apply s k = some (.inr s')) {attr : N} (r : ℕ) :
    ∀ (n : N), rank n = r → ∀ (top : N) (rest : List N) (st : ResolverState N S V), (∀ a s, st.deps a = some s → SpecFor L D a s) →
      st.current = n → st.stack = top :: rest → Halts L attr st ∨ ∃ st', Reaches L attr st st' ∧ Left L D rank n top rest st st' := by
  induction r using Nat.strong_induction_on with
  | _ r ihr =>
    intro n hrn top rest st hsp hcur hstk
    rcases hd : st.deps n with _ | s
    · rcases hc : st.cache attr with _ | v
      · by_cases hb : st.haveDefault = true
        · refine .inr ⟨{ st with cached := Function.update st.cached st.current true, current := top, stack := rest, haveDefault := false },
            .step hc ?_, ⟨hsp, rfl, rfl, ?_, ?_, fun _ _ _ => rfl, fun h => absurd hd h⟩⟩
          · unfold resolverStep
            rw [hcur, hd]
            simp only [hb, if_true, hstk]
          · simp [hcur]
          · intro a ha
            by_cases he : a = n
            · subst he; simp [hcur]
            · rw [hcur]; simpa [Function.update_of_ne he] using ha
        · refine .inl (halts_of_raise ?_)
          unfold resolverStep
          rw [hcur, hd]
          simp only [hb, if_false, Bool.false_eq_true]
      · exact .inl (halts_of_done hc)
    · induction s using hwf.induction generalizing st with
      | _ s ihs =>
        obtain ⟨m, hm⟩ : ∃ m, ((L.args s).filter (fun ad => !st.cached ad.1)).length ≤ m := ⟨_, Nat.le_refl _⟩
        induction m generalizing st with
        | zero =>
          rcases hc : st.cache attr with _ | v
          swap
          · exact .inl (halts_of_done hc)
          have h0 : (L.args s).filter (fun ad => !st.cached ad.1) = [] := List.length_eq_zero_iff.mp (Nat.le_zero.mp hm)
          have hf : (L.args s).find? (fun ad => !st.cached ad.1) = none := by
            rw [List.find?_eq_none]
            exact List.filter_eq_nil_iff.mp h0
          rcases ha : L.apply s (resolverKwargs L st s) with _ | v | s'
          · refine .inl (halts_of_raise ?_)
            unfold resolverStep
            rw [hcur, hd]
            simp only [hf]
            change (match L.apply s (resolverKwargs L st s) with | none => none | some (.inr s') => _ | some (.inl dependency) => _) = _
            rw [ha]
          · refine .inr ⟨{ st with
              cache := Function.update st.cache st.current (some v)
              cached := Function.update st.cached st.current true
              current := top
              stack := rest
              haveDefault := false }, .step hc ?_, ⟨hsp, rfl, rfl, ?_, ?_, fun _ _ _ => rfl, fun _ => by simp [hcur]⟩⟩
            · unfold resolverStep
              rw [hcur, hd]
              simp only [hf]
              change (match L.apply s (resolverKwargs L st s) with | none => none | some (.inr s') => _ | some (.inl dependency) => _) = _
              rw [ha]
              simp only [hstk]
            · simp [hcur]
            · intro a ha
              by_cases he : a = n
              · subst he; simp [hcur]
              · rw [hcur]; simpa [Function.update_of_ne he] using ha
          · obtain ⟨st1, hst1⟩ : ∃ st1 : ResolverState N S V, st1 = { st with
              deps := Function.update st.deps st.current (some s')
              replaced := Function.update st.replaced st.current (some s) } := ⟨_, rfl⟩
            have hstep : resolverStep L st = some st1 := by
              unfold resolverStep
              rw [hcur, hd]
              simp only [hf]
              change (match L.apply s (resolverKwargs L st s) with | none => none | some (.inr s') => _ | some (.inl dependency) => _) = _
              rw [ha]
              simp only
              rw [hst1, hcur]
            have hsp1 : ∀ a s, st1.deps a = some s → SpecFor L D a s := by
              intro a s1 h
              rw [hst1, hcur] at h
              by_cases he : a = n
              · subst he
                simp only [Function.update_self, Option.some.injEq] at h
                exact h ▸ .other (hsp _ _ hd) ha
              · simp only [Function.update_of_ne he] at h
                exact hsp a s1 h
            rcases ihs s' ⟨_, ha⟩ st1 hsp1 (by rw [hst1]; exact hcur) (by rw [hst1]; exact hstk) (by rw [hst1, hcur]; simp) with
              h | ⟨st2, h2, h3⟩
            · exact .inl ((Reaches.step hc hstep).halts h)
            · refine .inr ⟨st2, (Reaches.step hc hstep).trans h2, ⟨h3.specs, h3.current, h3.stack, h3.done, ?_, ?_,
                fun _ => h3.value (by rw [hst1, hcur]; simp)⟩⟩
              · intro a ha
                exact h3.mono a (by rw [hst1]; exact ha)
              · intro a hne hle
                rw [h3.frame a hne hle, hst1, hcur]
                simp [Function.update_of_ne hne]
        | succ m ihm =>
          rcases hf : (L.args s).find? (fun ad => !st.cached ad.1) with _ | ad
          · refine ihm st hsp hcur hstk hd ?_
            have : (L.args s).filter (fun ad => !st.cached ad.1) = [] := List.filter_eq_nil_iff.mpr (List.find?_eq_none.mp hf)
            rw [this]
            simp
          rcases hc : st.cache attr with _ | v
          swap
          · exact .inl (halts_of_done hc)
          have had : ad ∈ L.args s := List.mem_of_find?_eq_some hf
          have huc : st.cached ad.1 = false := by simpa using List.find?_some hf
          have hlt := hrank n s (hsp _ _ hd) ad had
          obtain ⟨st1, hst1⟩ : ∃ st1 : ResolverState N S V,
            st1 = { st with stack := st.current :: st.stack, current := ad.1, haveDefault := ad.2 } := ⟨_, rfl⟩
          have hstep1 : resolverStep L st = some st1 := by
            unfold resolverStep
            rw [hcur, hd]
            simp only [hf]
            rw [hst1, hcur]
          have hreach1 := Reaches.step hc hstep1
          rcases ihr (rank ad.1) (hrn ▸ hlt) ad.1 rfl n (top :: rest) st1 (by rw [hst1]; exact hsp) (by rw [hst1])
            (by rw [hst1, hcur, hstk]) with h | ⟨st2, h2, h3⟩
          · exact .inl (hreach1.halts h)
          have hnn : n ≠ ad.1 := fun he => by rw [← he] at hlt; exact absurd hlt (Nat.lt_irrefl _)
          have hmono2 : ∀ a, st.cached a = true → st2.cached a = true := fun a ha => h3.mono a (by rw [hst1]; exact ha)
          have hframe2 : ∀ a, a ≠ ad.1 → rank ad.1 ≤ rank a → st2.deps a = st.deps a := by
            intro a hne hle
            rw [h3.frame a hne hle, hst1]
          have hcount : ((L.args s).filter (fun ad => !st2.cached ad.1)).length ≤ m := by
            have := filter_uncached_lt hmono2 had huc h3.done
            omega
          rcases ihm st2 h3.specs h3.current h3.stack (by rw [hframe2 n hnn hlt.le]; exact hd) hcount with h | ⟨st4, h4, h5⟩
          · exact .inl ((hreach1.trans h2).halts h)
          · refine .inr ⟨st4, (hreach1.trans h2).trans h4, ⟨h5.specs, h5.current, h5.stack, h5.done, fun a ha => h5.mono a (hmono2 a ha), ?_,
              fun hn => h5.value (by rw [hframe2 n hnn hlt.le]; exact hn)⟩⟩
            intro a hne hle
            have hne' : a ≠ ad.1 := fun he => by
              rw [he] at hle
              exact absurd (hlt.trans_le hle) (Nat.lt_irrefl _)
            rw [h5.frame a hne hle, hframe2 a hne' (hlt.le.trans hle)]

/-- Entries replaced once are remembered. -/
structure ReplacedOnce (L : SpecLang N S V) (D : N → Option S) (st : ResolverState N S V) : Prop where
  same : ∀ n, st.replaced n = none → st.deps n = D n
  kept : ∀ n s, st.replaced n = some s → D n = some s ∧ ∃ s', st.deps n = some s' ∧ ∀ k s'', L.apply s' k ≠ some (.inr s'')

theorem ReplacedOnce.step {L : SpecLang N S V} {D : N → Option S}
    (hL : ∀ n s k s', D n = some s → L.apply s k = some (.inr s') → ∀ k' s'', L.apply s' k' ≠ some (.inr s'')) {st st' : ResolverState N S V} (h : ReplacedOnce L D st) (hs : resolverStep L st = some st') :
    ReplacedOnce L D st' := by
  unfold resolverStep at hs
  rcases hd : st.deps st.current with _ | s
  · rw [hd] at hs
    simp only at hs
    split_ifs at hs with hdef
    rcases hst : st.stack with _ | ⟨top, rest⟩
    · rw [hst] at hs; simp at hs
    · rw [hst] at hs
      simp only [Option.some.injEq] at hs
      subst hs
      exact ⟨h.same, h.kept⟩
  · rw [hd] at hs
    simp only at hs
    rcases hf : (L.args s).find? (fun ad => !st.cached ad.1) with _ | ad
    · rw [hf] at hs
      simp only at hs
      change (match L.apply s (resolverKwargs L st s) with | none => none | some (.inr s') => _ | some (.inl dependency) => _) = _ at hs
      rcases ha : L.apply s (resolverKwargs L st s) with _ | v | s'
      · rw [ha] at hs; simp at hs
      · rw [ha] at hs
        simp only at hs
        rcases hst : st.stack with _ | ⟨top, rest⟩
        · rw [hst] at hs; simp at hs
        · rw [hst] at hs
          simp only [Option.some.injEq] at hs
          subst hs
          exact ⟨h.same, h.kept⟩
      · rw [ha] at hs
        simp only [Option.some.injEq] at hs
        subst hs
        have hnew : st.replaced st.current = none := by
          rcases hr : st.replaced st.current with _ | s0
          · rfl
          · obtain ⟨_, s1, h1, h2⟩ := h.kept _ _ hr
            rw [hd, Option.some.injEq] at h1
            subst h1
            exact absurd ha (h2 _ _)
        refine ⟨fun n hn => ?_, fun n s1 hn => ?_⟩
        · by_cases he : n = st.current
          · subst he; simp at hn
          · simp only [Function.update_of_ne he] at hn ⊢
            exact h.same n hn
        · by_cases he : n = st.current
          · subst he
            simp only [Function.update_self, Option.some.injEq] at hn
            subst hn
            have hDs : D st.current = some s := by rw [← h.same _ hnew, hd]
            exact ⟨hDs, s', by simp, fun k s'' => hL _ _ _ _ hDs ha k s''⟩
          · simp only [Function.update_of_ne he] at hn ⊢
            exact h.kept n s1 hn
    · rw [hf] at hs
      simp only [Option.some.injEq] at hs
      subst hs
      exact ⟨h.same, h.kept⟩

theorem resolverLoop_restores {L : SpecLang N S V} {D : N → Option S}
    (hL : ∀ n s k s', D n = some s → L.apply s k = some (.inr s') → ∀ k' s'', L.apply s' k' ≠ some (.inr s'')) {attr : N} (fuel : ℕ) :
    ∀ {st : ResolverState N S V}, ReplacedOnce L D st → ∀ {v deps}, resolverLoop L attr fuel st = some (some v, deps) → deps = D := by
  have fin : ∀ {st : ResolverState N S V}, ReplacedOnce L D st → ∀ {v w deps},
      (some (some w, fun n => (st.replaced n).or (st.deps n)) : Option (Option V × (N → Option S))) =
      some (some v, deps) → deps = D := by
    intro st h v w deps hr
    simp only [Option.some.injEq, Prod.mk.injEq] at hr
    rw [← hr.2]
    funext n
    rcases hn : st.replaced n with _ | s
    · simpa using h.same n hn
    · simpa using (h.kept n s hn).1.symm
  induction fuel with
  | zero =>
    intro st h v deps hr
    rw [resolverLoop] at hr
    rcases hc : st.cache attr with _ | w
    · rw [hc] at hr; simp at hr
    · rw [hc] at hr
      exact fin h hr
  | succ fuel ih =>
    intro st h v deps hr
    rw [resolverLoop] at hr
    rcases hc : st.cache attr with _ | w
    · rw [hc] at hr
      simp only at hr
      rcases hs : resolverStep L st with _ | st'
      · rw [hs] at hr; simp at hr
      · rw [hs] at hr
        exact ih (h.step hL hs) hr
    · rw [hc] at hr
      exact fin h hr

/-- Dictionary of a class: the definitions of the hierarchy in order. -/
theorem flattenClass_eq (t : ClassTree N S) : flattenClass t = t.inOrder.flatten := by
  have hfold : ∀ l : List (List (N × S)), l.reverse.foldl (fun d b => b ++ d) [] = l.flatten := by
    intro l
    rw [List.foldl_reverse]
    induction l with
    | nil => rfl
    | cons a l ih => simp [ih]
  induction t using ClassTree.rec (motive_2 := fun bases => (bases.map flattenClass).flatten = (bases.flatMap ClassTree.inOrder).flatten) with
  | mk own bases ih =>
    rw [flattenClass, ClassTree.inOrder, hfold, ih]
    simp
  | nil => rfl
  | cons t ts h1 h2 => simp [h1, h2]

end Brevitas
