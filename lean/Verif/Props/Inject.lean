import Verif.Lemmas.Inject

/-!
# C58: configuration overrides take effect
-/

set_option linter.unusedSectionVars false

namespace Brevitas.Props

open Spec

variable {N S V : Type*} [DecidableEq N]

/-! ## A small language of specifications, for examples -/

/-- Specifications of the examples: a constant; the sum of some attributes, missing ones counting `10`; one of two specifications,
depending on an attribute. -/
inductive DemoSpec
  | const (v : ℕ)
  | sum (args : List (String × Bool))
  | choose (cond : String) (zero other : DemoSpec)

/-- Their meaning. -/
def demoLang : SpecLang String DemoSpec ℕ where
  args
    | .const _ => []
    | .sum args => args
    | .choose cond _ _ => [(cond, false)]
  apply
    | .const v, _ => some (.inl v)
    | .sum args, k => if args.any (fun ad => !ad.2 && (k ad.1).isNone) then none else some (.inl (args.map fun ad => (k ad.1).getD 10).sum)
    | .choose cond zero other, k => (k cond).map fun c => .inr (if c = 0 then zero else other)

theorem demoLang_strict : StrictLang demoLang := by
  intro s k ⟨ad, had, h1, h2⟩
  cases s with
  | const v => simp [demoLang] at had
  | sum args =>
    simp only [demoLang] at had ⊢
    rw [if_pos]
    rw [List.any_eq_true]
    exact ⟨ad, had, by simp [h1, h2]⟩
  | choose cond zero other =>
    simp only [demoLang, List.mem_singleton] at had ⊢
    subst had
    simp only at h2
    rw [h2]
    rfl

/-! ## The order of inheritance -/

/-- An attribute's definition is the nearest in the order of inheritance. -/
theorem C58_nearest (t : ClassTree N S) (n : N) : dependenciesOf t n = t.inOrder.findSome? fun own => own.lookup n := by
  unfold dependenciesOf
  rw [flattenClass_eq]
  induction t.inOrder with
  | nil => rfl
  | cons own l ih =>
    rw [List.flatten_cons, List.lookup_append, ih, List.findSome?_cons]
    rcases own.lookup n with _ | s <;> rfl

/-- Overrides win over definitions; other definitions stay. -/
theorem C58_let (t : ClassTree N S) (overrides : List (N × S)) (n : N) :
    dependenciesOf (injectorLet t overrides) n = (overrides.lookup n).or (dependenciesOf t n) := by
  rw [C58_nearest, C58_nearest]
  unfold injectorLet
  rw [ClassTree.inOrder]
  rw [List.findSome?_cons]
  rcases overrides.lookup n with _ | s <;> simp

/-- Of several overrides the last wins. -/
theorem C58_let_let (t : ClassTree N S) (o₁ o₂ : List (N × S)) (n : N) :
    dependenciesOf (injectorLet (injectorLet t o₁) o₂) n = ((o₂.lookup n).or (o₁.lookup n)).or (dependenciesOf t n) := by
  rw [C58_let, C58_let, Option.or_assoc]

/-- With a shared ancestor the nearest definition need not win. `A` defines `x = 1`, `B` and `C` derive from `A`, `C` defines `x = 2`,
`D` derives from `B` and `C`: Python's order is `D, B, C, A`, but the injector resolves `x` to `1`. -/
theorem C58_shared_ancestor :
    let A : ClassTree String ℕ := .mk [("x", 1)] []
    let B := ClassTree.mk [] [A]
    let C := ClassTree.mk [("x", 2)] [A]
    let D := ClassTree.mk [] [B, C]
    dependenciesOf D "x" = some 1 ∧
      [([] : List (String × ℕ)), [], [("x", 2)], [("x", 1)]].findSome? (fun own => own.lookup "x") = some 2 := by
  simp only [dependenciesOf, flattenClass, List.map_cons, List.map_nil, List.reverse_cons, List.reverse_nil, List.nil_append,
    List.foldl_cons, List.foldl_nil, List.append_nil, List.cons_append]
  decide

/-! ## Resolution -/

/-- A value read from an injector is the value the definitions give. -/
theorem C58_sound {L : SpecLang N S V} (hL : StrictLang L) {D : N → Option S} {attr : N} {fuel : ℕ} {v : V} {D' : N → Option S}
    (h : injectorGetattr L D attr fuel = some (some v, D')) : Resolves L D (.inl attr) v := by
  refine resolverLoop_sound hL fuel (st := ⟨fun _ => none, fun _ => false, attr, [attr], false, D, fun _ => none⟩) ?_ h
  exact ⟨by simp, by simp, fun _ => Iff.rfl, fun n s v h1 h2 => .name h1 h2⟩

/-- Every value the definitions give is found. -/
theorem C58_complete {L : SpecLang N S V} (hL : StrictLang L) {D : N → Option S} (hD : Acyclic L D) {attr : N} {v : V}
    (h : Resolves L D (.inl attr) v) : ∃ fuel, ∃ D', ∀ i, injectorGetattr L D attr (fuel + i) = some (some v, D') := by
  obtain ⟨rank, hrank⟩ := hD
  obtain ⟨st0, hst0⟩ : ∃ st0 : ResolverState N S V, st0 = ⟨fun _ => none, fun _ => false, attr, [attr], false, D, fun _ => none⟩ := ⟨_, rfl⟩
  have hready : Ready L D rank attr attr attr [] st0 := by
    subst hst0
    exact ⟨⟨by simp, by simp, fun _ => Iff.rfl, fun n s v h1 h2 => .name h1 h2⟩, rfl, rfl, rfl, fun _ _ _ => rfl, Nat.le_refl _, rfl⟩
  obtain ⟨st', ⟨j, hj⟩, hfin⟩ := resolves_reaches (attr := attr) hL hrank h attr [] st0 hready (by subst hst0; rfl)
  refine ⟨j, fun n => (st'.replaced n).or (st'.deps n), fun i => ?_⟩
  unfold injectorGetattr
  rw [← hst0, Nat.add_comm, hj, resolverLoop_done hfin.value]

/-- Reading an attribute gives a value exactly if the definitions do, and then that value. -/
theorem C58_resolution {L : SpecLang N S V} (hL : StrictLang L) {D : N → Option S} (hD : Acyclic L D) (attr : N) (v : V) :
    (∃ fuel D', injectorGetattr L D attr fuel = some (some v, D')) ↔ Resolves L D (.inl attr) v := by
  constructor
  · rintro ⟨fuel, D', h⟩
    exact C58_sound hL h
  · intro h
    obtain ⟨fuel, D', h⟩ := C58_complete hL hD h
    exact ⟨fuel, D', h 0⟩

/-- Reading an attribute always ends. -/
theorem C58_terminates {L : SpecLang N S V} {D : N → Option S} (hD : Acyclic L D)
    (hwf : WellFounded fun s' s : S => ∃ k, L.apply s k = some (.inr s')) (attr : N) :
    ∃ fuel r, ∀ i, injectorGetattr L D attr (fuel + i) = some r := by
  obtain ⟨rank, hrank⟩ := hD
  suffices h : Halts L attr (⟨fun _ => none, fun _ => false, attr, [attr], false, D, fun _ => none⟩ : ResolverState N S V) by
    obtain ⟨fuel, r, h⟩ := h
    exact ⟨fuel, r, fun i => resolverLoop_mono fuel h i⟩
  rcases hattr : D attr with _ | s
  · apply halts_of_raise
    unfold resolverStep
    simp [hattr]
  · rcases resolver_leaves hrank hwf (attr := attr) _ attr rfl attr []
      ⟨fun _ => none, fun _ => false, attr, [attr], false, D, fun _ => none⟩ (fun a s h => .given h) rfl rfl with h | ⟨st', h1, h2⟩
    · exact h
    · refine h1.halts ?_
      rcases hc : st'.cache attr with _ | v
      · exact absurd hc (h2.value (by simp [hattr]))
      · exact halts_of_done hc

/-- If the definitions give no value, an exception is raised. -/
theorem C58_raises {L : SpecLang N S V} (hL : StrictLang L) {D : N → Option S} (hD : Acyclic L D)
    (hwf : WellFounded fun s' s : S => ∃ k, L.apply s k = some (.inr s')) {attr : N} (h : ¬ ∃ v, Resolves L D (.inl attr) v) :
    ∃ fuel D', ∀ i, injectorGetattr L D attr (fuel + i) = some (none, D') := by
  obtain ⟨fuel, ⟨v, D'⟩, hr⟩ := C58_terminates hD hwf attr
  rcases v with _ | v
  · exact ⟨fuel, D', hr⟩
  · exact absurd ⟨v, C58_sound hL (hr 0)⟩ h

/-- Every attribute, overridden or not, resolves with the overrides in place of the definitions they override. -/
theorem C58_override {L : SpecLang N S V} (hL : StrictLang L) (t : ClassTree N S) (overrides : List (N × S))
    (hD : Acyclic L (dependenciesOf (injectorLet t overrides))) (attr : N) (v : V) :
    (∃ fuel D', injectorGetattr L (dependenciesOf (injectorLet t overrides)) attr fuel = some (some v, D')) ↔
      Resolves L (fun n => (overrides.lookup n).or (t.inOrder.findSome? fun own => own.lookup n)) (.inl attr) v := by
  rw [C58_resolution hL hD]
  have : dependenciesOf (injectorLet t overrides) = fun n => (overrides.lookup n).or (t.inOrder.findSome? fun own => own.lookup n) := by
    funext n
    rw [C58_let, C58_nearest]
  rw [this]

/-- Attributes that do not depend on what is overridden keep their value: for a set `U` of attributes closed under dependencies. -/
theorem C58_unaffected {L : SpecLang N S V} {D D' : N → Option S} (U : N → Prop)
    (hU : ∀ n s, U n → SpecFor L D n s → ∀ ad ∈ L.args s, U ad.1) (hDD : ∀ n, U n → D' n = D n) {attr : N} (ha : U attr) (v : V) :
    Resolves L D' (.inl attr) v ↔ Resolves L D (.inl attr) v := by
  have key : ∀ {E E' : N → Option S}, (∀ n, U n → E n = D n) → (∀ n, U n → E' n = D n) → ∀ {x v}, Resolves L E x v →
      match x with
      | .inl n => U n → Resolves L E' (.inl n) v
      | .inr s => ∀ n, U n → SpecFor L D n s → Resolves L E' (.inr s) v := by
    intro E E' hE hE' x v h
    induction h with
    | @name n s v h1 _ ih =>
      intro hn
      have hs : D n = some s := by rw [← hE n hn, h1]
      exact .name (by rw [hE' n hn, hs]) (ih n hn (.given hs))
    | @value s v k h1 h2 h3 h4 ih =>
      intro n hn hs
      refine .value k (fun a w hk => ?_) (fun ad had hk => ?_) h3 h4
      · by_cases hin : ∃ ad ∈ L.args s, ad.1 = a
        · obtain ⟨ad, had, rfl⟩ := hin
          exact ih _ w hk (hU n s hn hs ad had)
        · push Not at hin
          rw [h3 a hin] at hk; cases hk
      · have hu := hU n s hn hs ad had
        have := h2 ad had hk
        exact ⟨this.1, by rw [hE' _ hu, ← hE _ hu]; exact this.2⟩
    | @other s s' v k h1 h2 h3 h4 _ ih ih2 =>
      intro n hn hs
      refine .other k (fun a w hk => ?_) (fun ad had hk => ?_) h3 h4 (ih2 n hn (.other hs h4))
      · by_cases hin : ∃ ad ∈ L.args s, ad.1 = a
        · obtain ⟨ad, had, rfl⟩ := hin
          exact ih _ w hk (hU n s hn hs ad had)
        · push Not at hin
          rw [h3 a hin] at hk; cases hk
      · have hu := hU n s hn hs ad had
        have := h2 ad had hk
        exact ⟨this.1, by rw [hE' _ hu, ← hE _ hu]; exact this.2⟩
  exact ⟨fun h => key hDD (fun _ _ => rfl) h ha, fun h => key (fun _ _ => rfl) hDD h ha⟩

/-! ## Reads leave the definitions unchanged -/

/-- After a successful read the definitions are as before, if no attribute is replaced twice: a specification returned by a `@value`
function does not itself return another. -/
theorem C58_repeatable_partial {L : SpecLang N S V} {D : N → Option S}
    (hL : ∀ n s k s', D n = some s → L.apply s k = some (.inr s') → ∀ k' s'', L.apply s' k' ≠ some (.inr s'')) {attr : N} {fuel : ℕ} {v : V}
    {D' : N → Option S} (h : injectorGetattr L D attr fuel = some (some v, D')) : D' = D :=
  resolverLoop_restores hL fuel (st := ⟨fun _ => none, fun _ => false, attr, [attr], false, D, fun _ => none⟩)
    ⟨fun _ _ => rfl, by simp⟩ h

/-- An attribute replaced twice is not put back. `x` is chosen by `c`, the choice is again a choice, by `d`: reading `x` with `c = d = 0` gives
`1` and leaves the second choice as the definition of `x`. An override `c = 1` then still gives `1`, although the definitions give `3`. -/
theorem C58_replaced_twice :
    let D : String → Option DemoSpec := fun n => [("x", DemoSpec.choose "c" (.choose "d" (.const 1) (.const 2)) (.const 3)),
      ("c", .const 0), ("d", .const 0)].lookup n
    let override (D : String → Option DemoSpec) : String → Option DemoSpec := fun n => if n = "c" then some (.const 1) else D n
    ∃ D', injectorGetattr demoLang D "x" 10 = some (some 1, D') ∧
      (∃ D'', injectorGetattr demoLang (override D') "x" 10 = some (some 1, D'')) ∧
      (∃ D'', injectorGetattr demoLang (override D) "x" 10 = some (some 3, D'')) := by
  refine ⟨_, rfl, ⟨_, rfl⟩, ⟨_, rfl⟩⟩

/-- A failed read leaves its replacements behind. `x` is chosen by `c`: with `c = 0` it needs `y`, which is missing, so that reading `x` raises.
An override `c = 1` then still raises, although the definitions give `3`. -/
theorem C58_failed_read :
    let D : String → Option DemoSpec := fun n => [("x", DemoSpec.choose "c" (.sum [("y", false)]) (.const 3)), ("c", .const 0)].lookup n
    let override (D : String → Option DemoSpec) : String → Option DemoSpec := fun n => if n = "c" then some (.const 1) else D n
    ∃ D', injectorGetattr demoLang D "x" 10 = some (none, D') ∧
      (∃ D'', injectorGetattr demoLang (override D') "x" 10 = some (none, D'')) ∧
      (∃ D'', injectorGetattr demoLang (override D) "x" 10 = some (some 3, D'')) := by
  refine ⟨_, rfl, ⟨_, rfl⟩, ⟨_, rfl⟩⟩

/-! ## Examples -/

/-- A quantiser in the style of the library: `scale` is computed from `bits` and an optional `offset`; `total` from `scale` and `bits`. -/
def demoTree : ClassTree String DemoSpec :=
  .mk [("total", .sum [("scale", false), ("bits", false)])]
    [.mk [("bits", .const 8)] [], .mk [("bits", .const 4), ("scale", .sum [("bits", false), ("offset", true)])] []]

theorem lookup_mem {o : List (N × S)} {n : N} {s : S} (h : o.lookup n = some s) : (n, s) ∈ o := by
  induction o with
  | nil => simp at h
  | cons p o ih =>
    rw [List.lookup_cons] at h
    rcases he : n == p.1 with _ | _
    · rw [he] at h
      exact List.mem_cons_of_mem _ (ih h)
    · rw [he] at h
      simp only [Option.some.injEq] at h
      have := beq_iff_eq.mp he
      subst h this
      exact List.mem_cons_self

/-- The dictionary of the example. -/
theorem demo_dependencies (o : List (String × DemoSpec)) : dependenciesOf (injectorLet demoTree o) = fun n =>
    (o ++ [("total", DemoSpec.sum [("scale", false), ("bits", false)]), ("bits", .const 8), ("bits", .const 4),
      ("scale", .sum [("bits", false), ("offset", true)])]).lookup n := by
  funext n
  simp only [dependenciesOf, injectorLet, demoTree, flattenClass, List.map_cons, List.map_nil, List.reverse_cons, List.reverse_nil,
    List.nil_append, List.foldl_cons, List.foldl_nil, List.append_nil, List.cons_append]

/-- Specifications of the example, in order of dependency. -/
def demoRank (n : String) : ℕ := if n = "total" then 2 else if n = "scale" then 1 else 0

theorem demo_acyclic (o : List (String × DemoSpec)) (ho : ∀ p ∈ o, ∃ v, p.2 = .const v) :
    Acyclic demoLang (dependenciesOf (injectorLet demoTree o)) := by
  have base : ∀ n s, dependenciesOf (injectorLet demoTree o) n = some s →
      (∃ v, s = .const v) ∨ (n = "total" ∧ s = .sum [("scale", false), ("bits", false)]) ∨
      (n = "scale" ∧ s = .sum [("bits", false), ("offset", true)]) := by
    intro n s h
    rw [C58_let] at h
    rcases hl : o.lookup n with _ | s'
    · rw [hl] at h
      simp only [Option.none_or] at h
      have ht : dependenciesOf demoTree n = some s := h
      rw [C58_nearest] at ht
      simp only [demoTree, ClassTree.inOrder, List.flatMap_cons, List.flatMap_nil, List.append_nil, List.cons_append, List.nil_append,
        List.findSome?_cons, List.findSome?_nil] at ht
      by_cases h1 : n = "total"
      · subst h1
        simp at ht
        exact .inr (.inl ⟨rfl, ht.symm⟩)
      · by_cases h2 : n = "bits"
        · subst h2
          simp [List.lookup] at ht
          exact .inl ⟨8, ht.symm⟩
        · by_cases h3 : n = "scale"
          · subst h3
            simp [List.lookup] at ht
            exact .inr (.inr ⟨rfl, ht.symm⟩)
          · have e1 : (n == "total") = false := by simpa using h1
            have e2 : (n == "bits") = false := by simpa using h2
            have e3 : (n == "scale") = false := by simpa using h3
            simp [List.lookup, e1, e2, e3] at ht
    · rw [hl] at h
      simp only [Option.some_or, Option.some.injEq] at h
      subst h
      obtain ⟨v, hv⟩ := ho (n, s') (lookup_mem hl)
      exact .inl ⟨v, hv⟩
  have all : ∀ n s, SpecFor demoLang (dependenciesOf (injectorLet demoTree o)) n s →
      (∃ v, s = .const v) ∨ (n = "total" ∧ s = .sum [("scale", false), ("bits", false)]) ∨
      (n = "scale" ∧ s = .sum [("bits", false), ("offset", true)]) := by
    intro n s h
    induction h with
    | given h => exact base _ _ h
    | other _ h ih =>
      rcases ih with ⟨v, rfl⟩ | ⟨rfl, rfl⟩ | ⟨rfl, rfl⟩
      · simp [demoLang] at h
      · simp only [demoLang] at h; split_ifs at h; simp at h
      · simp only [demoLang] at h; split_ifs at h; simp at h
  refine ⟨demoRank, fun n s h ad had => ?_⟩
  rcases all n s h with ⟨v, rfl⟩ | ⟨rfl, rfl⟩ | ⟨rfl, rfl⟩
  · simp [demoLang] at had
  · simp only [demoLang, List.mem_cons, List.not_mem_nil, or_false] at had
    rcases had with rfl | rfl <;> decide
  · simp only [demoLang, List.mem_cons, List.not_mem_nil, or_false] at had
    rcases had with rfl | rfl <;> decide

/-- Hypotheses of `C58_override`: with `bits = 3` the total is `3 + (3 + 10)`. -/
example : Resolves demoLang (fun n => ([("bits", DemoSpec.const 3)].lookup n).or (demoTree.inOrder.findSome? fun own => own.lookup n))
    (.inl "total") 16 :=
  (C58_override demoLang_strict demoTree [("bits", .const 3)] (demo_acyclic _ (by simp)) "total" 16).mp
    ⟨20, dependenciesOf (injectorLet demoTree [("bits", .const 3)]), by rw [demo_dependencies]; rfl⟩

/-- Without override: `8 + (8 + 10)`. -/
example : Resolves demoLang (dependenciesOf (injectorLet demoTree [])) (.inl "total") 26 :=
  C58_sound demoLang_strict (fuel := 20) (D' := dependenciesOf (injectorLet demoTree [])) (by rw [demo_dependencies]; rfl)

/-- Hypothesis of `C58_terminates`: chains of replacements end, in the example language. -/
theorem demoLang_wf : WellFounded fun s' s : DemoSpec => ∃ k, demoLang.apply s k = some (.inr s') := by
  refine ⟨fun s => ?_⟩
  induction s with
  | const v => exact ⟨_, fun s' ⟨k, h⟩ => by simp [demoLang] at h⟩
  | sum args => exact ⟨_, fun s' ⟨k, h⟩ => by simp only [demoLang] at h; split_ifs at h; simp at h⟩
  | choose cond zero other h1 h2 =>
    refine ⟨_, fun s' ⟨k, h⟩ => ?_⟩
    simp only [demoLang, Option.map_eq_some_iff] at h
    obtain ⟨c, _, h⟩ := h
    simp only [Sum.inr.injEq] at h
    subst h
    split_ifs
    · exact h1
    · exact h2

/-- Hypotheses of `C58_repeatable_partial`: `x` is replaced once, and the dictionary is restored. -/
example : let D : String → Option DemoSpec := fun n => if n = "x" then some (.choose "c" (.const 5) (.const 3)) else
      if n = "c" then some (.const 0) else none
    ∃ D', injectorGetattr demoLang D "x" 10 = some (some 5, D') ∧ D' = D := by
  intro D
  refine ⟨_, rfl, ?_⟩
  refine C58_repeatable_partial (L := demoLang) (attr := "x") (fuel := 10) (v := 5) ?_ rfl
  intro n s k s' hs ha k' s'' ha'
  simp only [D] at hs
  split_ifs at hs
  · simp only [Option.some.injEq] at hs
    subst hs
    simp only [demoLang, Option.map_eq_some_iff] at ha
    obtain ⟨c, _, h⟩ := ha
    simp only [Sum.inr.injEq] at h
    subst h
    split_ifs at ha' <;> simp [demoLang] at ha'
  · simp only [Option.some.injEq] at hs
    subst hs
    simp [demoLang] at ha

/-- Hypotheses of `C58_unaffected`: `bits` does not depend on `offset`. -/
example : Resolves demoLang (dependenciesOf (injectorLet demoTree [("offset", .const 1)])) (.inl "bits") 8 := by
  refine (C58_unaffected (D := dependenciesOf (injectorLet demoTree [])) (fun n => n = "bits") ?_ ?_ rfl 8).mpr
    (C58_sound demoLang_strict (fuel := 5) (D' := dependenciesOf (injectorLet demoTree [])) (by rw [demo_dependencies]; rfl))
  · intro n s hn hs
    subst hn
    have : s = .const 8 := by
      generalize hb : "bits" = n at hs
      induction hs with
      | given h =>
        subst hb
        rw [demo_dependencies] at h
        simpa [List.lookup] using h.symm
      | other _ h ih => rw [ih] at h; simp [demoLang] at h
    subst this
    simp [demoLang]
  · intro n hn
    subst hn
    rw [demo_dependencies, demo_dependencies]
    rfl

/-- `C58_raises` applies: `total` needs `scale`. -/
example : ∃ D', injectorGetattr demoLang (fun n => [("total", DemoSpec.sum [("scale", false), ("offset", true)])].lookup n) "total" 9 =
    some (none, D') := ⟨_, rfl⟩

end Brevitas.Props
