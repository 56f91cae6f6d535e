import Verif.Lemmas.Contexts

/-!
# C48: leaving a context manager restores the model
-/

set_option linter.unusedSectionVars false

namespace Brevitas.Props

open Brevitas

variable {M : Type*} [DecidableEq M]

/-! ## What the flags should be -/

/-- `m` is part of a quantiser of the model. -/
def InProxy (T : ModelTree M) (model m : M) : Prop := ∃ p ∈ T.sub model, T.kind p ≠ .other ∧ m ∈ T.sub p

/-- All quantisers of the model quantise: none is disabled, and no activation quantiser only observes. -/
def QuantisationOn (T : ModelTree M) (model : M) (st : ModelState M) : Prop :=
  (∀ p ∈ T.sub model, T.kind p ≠ .other → st.disableQuant p = false) ∧
    ∀ p ∈ T.sub model, T.kind p = .act → ∀ m ∈ T.sub p, T.hasObserver m = true → st.observerOnly m = false

/-- The flags a user sees are the same. -/
def SameFlags (st st' : ModelState M) : Prop :=
  st'.training = st.training ∧ st'.disableQuant = st.disableQuant ∧ st'.observerOnly = st.observerOnly ∧
    st'.returnQuantTensor = st.returnQuantTensor

/-- The usual state: quantisers are on, and in the same training mode as the model. -/
def Usual (T : ModelTree M) (model : M) (st : ModelState M) : Prop :=
  QuantisationOn T model st ∧ ∀ m, InProxy T model m → st.training m = st.training model

theorem inProxy_iff (T : ModelTree M) (model m : M) :
    InProxy T model m ↔ InsideProxy T model .act m ∨ InsideProxy T model .acc m ∨ InsideProxy T model .weight m ∨
      InsideProxy T model .bias m := by
  constructor
  · rintro ⟨p, hp, hk, hm⟩
    cases h : T.kind p with
    | act => exact .inl ⟨p, hp, h, hm⟩
    | acc => exact .inr (.inl ⟨p, hp, h, hm⟩)
    | weight => exact .inr (.inr (.inl ⟨p, hp, h, hm⟩))
    | bias => exact .inr (.inr (.inr ⟨p, hp, h, hm⟩))
    | other => exact absurd h hk
  · rintro (⟨p, hp, hk, hm⟩ | ⟨p, hp, hk, hm⟩ | ⟨p, hp, hk, hm⟩ | ⟨p, hp, hk, hm⟩) <;>
      exact ⟨p, hp, by simp [hk], hm⟩

/-! A model for examples: module `0` is the model, `1` is a layer with a weight quantiser `2` and an activation quantiser `3`, which has a
statistics collector `4`; module `5` is a bias quantiser. -/

/-- The example's tree. -/
def demoModel : ModelTree (Fin 6) where
  sub m := if m = 0 then [0, 1, 2, 3, 4, 5] else if m = 1 then [1, 2, 3, 4, 5] else if m = 3 then [3, 4] else [m]
  kind m := if m = 2 then .weight else if m = 3 then .act else if m = 5 then .bias else .other
  hasReturn m := m = 1
  hasObserver m := m = 4
  hasSteps m := m = 4
  hasMomentum m := m = 4
  hasCounter m := m = 4

/-- The example's usual state, in training mode or not. -/
def demoState (training : Bool) : ModelState (Fin 6) where
  training _ := training
  disableQuant _ := false
  observerOnly _ := false
  returnQuantTensor m := m = 1
  steps _ := 300
  counter _ := 5
  trueAverage _ := false

theorem demoState_usual (b : Bool) : Usual demoModel 0 (demoState b) := ⟨⟨fun _ _ _ => rfl, fun _ _ _ _ _ _ => rfl⟩, fun _ _ => rfl⟩

/-! ## Calibration -/

/-- The state in which the body of `with calibration_mode(model)` starts. -/
theorem enter_eq (T : ModelTree M) (model : M) (n : ℕ) (st : ModelState M) :
    (CalibrationMode.new model true st).enter T model n st =
      (⟨st.training model, true, (disableReturnQuantTensor T model (extendCollectStats T model n st)).1⟩,
        disableParamQuantization T model true (disableActQuantization T true model true
          (disableReturnQuantTensor T model (extendCollectStats T model n st)).2)) := rfl

/-- In the body of `with calibration_mode(model)`, for every prior state: parameters and accumulators are not quantised, activation quantisers
only observe, all quantisers are in training mode (so that statistics are collected), for an unlimited number of steps, as a true average, and no
layer returns a quantised tensor. -/
theorem C48_inside (T : ModelTree M) (model : M) (n : ℕ) (st : ModelState M) :
    let st' := ((CalibrationMode.new model true st).enter T model n st).2
    (∀ p ∈ T.sub model, T.kind p = .weight ∨ T.kind p = .bias ∨ T.kind p = .acc → st'.disableQuant p = true) ∧
      (∀ p ∈ T.sub model, T.kind p = .act → ∀ m ∈ T.sub p, T.hasObserver m = true → st'.observerOnly m = true) ∧
      (∀ m, InProxy T model m → st'.training m = true) ∧
      (∀ m ∈ T.sub model, T.hasReturn m = true → st'.returnQuantTensor m = false) ∧
      (∀ m ∈ T.sub model, T.hasSteps m = true → st'.steps m = n) ∧
      ∀ m ∈ T.sub model, T.hasSteps m = true → T.hasMomentum m = true → st'.trueAverage m = true := by
  intro st'
  have hst' : st' = ((CalibrationMode.new model true st).enter T model n st).2 := rfl
  clear_value st'
  rw [enter_eq] at hst'
  obtain ⟨s0, h0⟩ : ∃ s, s = extendCollectStats T model n st := ⟨_, rfl⟩
  obtain ⟨s1, h1⟩ : ∃ s, s = (disableReturnQuantTensor T model s0).2 := ⟨_, rfl⟩
  obtain ⟨s2, h2⟩ : ∃ s, s = disableActQuantization T true model true s1 := ⟨_, rfl⟩
  have a := disableAct_observe T model true s1
  have b := disableParam_switched T model true s2
  rw [← h2] at a
  have e : st' = disableParamQuantization T model true s2 := by rw [hst', h2, h1, h0]
  rw [← e] at b
  have hs := b.stats_same.trans a.stats_same
  have hs1 : (s1.steps, s1.trueAverage) = (s0.steps, s0.trueAverage) := by
    rw [h1]
    exact forEach_same (fun st : ModelState M => (st.steps, st.trueAverage)) _ (fun p st => by split <;> rfl) _ _
  simp only [Prod.mk.injEq] at hs hs1
  refine ⟨fun p hp hk => ?_, fun p hp hk m hm ho => ?_, fun m hm => ?_, fun m hm hr => ?_, fun m hm h => ?_, fun m hm h h' => ?_⟩
  · rcases hk with hk | hk | hk
    · exact b.disable_in p hp (by simp [hk])
    · exact b.disable_in p hp (by simp [hk])
    · rw [b.disable_out p (by simp [hk])]
      exact a.disable_in p hp (by simp [hk])
  · rw [b.observer_out m (by simp)]
    exact a.observer_in m .act (by simp) ⟨p, hp, hk, hm⟩ ho
  · by_cases hw : InsideProxy T model .weight m
    · exact b.training_in m _ (by simp) hw
    by_cases hb : InsideProxy T model .bias m
    · exact b.training_in m _ (by simp) hb
    rw [b.training_out m (by simp [hw, hb])]
    rcases (inProxy_iff T model m).mp hm with h | h | h | h
    · exact a.training_in m _ (by simp) h
    · exact a.training_in m _ (by simp) h
    · exact absurd h hw
    · exact absurd h hb
  · rw [b.return_same, a.return_same, h1]
    exact (disableReturn_apply T model s0 m).1 hm hr
  · rw [hs.1, hs1.1, h0]
    exact extend_steps T model n st m hm h
  · rw [hs.2.2, hs1.2, h0]
    exact extend_average T model n st m hm h h'

/-- The state after `__exit__`, from any state. -/
theorem exit_facts (T : ModelTree M) (model : M) (c : CalibrationMode M) (st : ModelState M) :
    (∀ p ∈ T.sub model, T.kind p ≠ .other → (c.exit T model st).disableQuant p = false) ∧
      (∀ m, ¬ (m ∈ T.sub model ∧ T.kind m ≠ .other) → (c.exit T model st).disableQuant m = st.disableQuant m) ∧
      (∀ m, InsideProxy T model .act m → T.hasObserver m = true → (c.exit T model st).observerOnly m = false) ∧
      (∀ m, ¬ (T.hasObserver m = true ∧ InsideProxy T model .act m) → (c.exit T model st).observerOnly m = st.observerOnly m) ∧
      (∀ m, InProxy T model m → (c.exit T model st).training m = c.previousTrainingState) ∧
      (∀ m, ¬ InProxy T model m → (c.exit T model st).training m = st.training m) ∧
      (∀ m, (c.exit T model st).returnQuantTensor m =
        if m ∈ T.sub model ∧ T.hasReturn m = true then (c.returnState m).getD (st.returnQuantTensor m) else st.returnQuantTensor m) ∧
      (∀ m, (c.exit T model st).counter m =
        if m ∈ T.sub model ∧ T.hasSteps m = true ∧ T.hasCounter m = true then max (st.steps m) (st.counter m) else st.counter m) ∧
      (c.exit T model st).steps = st.steps ∧ (c.exit T model st).trueAverage = st.trueAverage := by
  obtain ⟨s0, h0⟩ : ∃ s, s = finalizeCollectStats T model st := ⟨_, rfl⟩
  obtain ⟨s1, h1⟩ : ∃ s, s = enableActQuantization T model c.previousTrainingState s0 := ⟨_, rfl⟩
  obtain ⟨s2, h2⟩ : ∃ s, s = enableParamQuantization T model c.previousTrainingState s1 := ⟨_, rfl⟩
  have e : c.exit T model st = restoreReturnQuantTensor T model c.returnState s2 := by rw [h2, h1, h0]; rfl
  have f := finalize_same T model st
  have a := enableAct_switched T model c.previousTrainingState s0
  have b := enableParam_switched T model c.previousTrainingState s1
  have r := restoreReturn_same T model c.returnState s2
  have hfc := finalize_counter T model st
  rw [← h1] at a
  rw [← h2] at b
  rw [← e] at r
  rw [← h0] at f hfc
  have hs := b.stats_same.trans a.stats_same
  simp only [Prod.mk.injEq] at hs
  refine ⟨fun p hp hk => ?_, fun m hm => ?_, fun m hm ho => ?_, fun m hm => ?_, fun m hm => ?_, fun m hm => ?_, fun m => ?_, fun m => ?_, ?_, ?_⟩
  · rw [r.2.1]
    cases h : T.kind p with
    | act => rw [b.disable_out p (by simp [h])]; exact a.disable_in p hp (by simp [h])
    | acc => rw [b.disable_out p (by simp [h])]; exact a.disable_in p hp (by simp [h])
    | weight => exact b.disable_in p hp (by simp [h])
    | bias => exact b.disable_in p hp (by simp [h])
    | other => exact absurd h hk
  · rw [r.2.1, b.disable_out m fun h => hm ⟨h.1, fun hk => (by simp [hk] at h)⟩,
      a.disable_out m fun h => hm ⟨h.1, fun hk => (by simp [hk] at h)⟩, f.2.1]
  · rw [r.2.2.1, b.observer_out m (by simp)]
    exact a.observer_in m .act (by simp) hm ho
  · rw [r.2.2.1, b.observer_out m (by simp), a.observer_out m (by simpa using hm), f.2.2.1]
  · rw [r.1]
    by_cases hw : InsideProxy T model .weight m
    · exact b.training_in m _ (by simp) hw
    by_cases hb : InsideProxy T model .bias m
    · exact b.training_in m _ (by simp) hb
    rw [b.training_out m (by simp [hw, hb])]
    rcases (inProxy_iff T model m).mp hm with h | h | h | h
    · exact a.training_in m _ (by simp) h
    · exact a.training_in m _ (by simp) h
    · exact absurd h hw
    · exact absurd h hb
  · rw [inProxy_iff] at hm
    push Not at hm
    rw [r.1, b.training_out m (by simp [hm]), a.training_out m (by simp [hm]), f.1]
  · rw [e, restoreReturn_apply, b.return_same, a.return_same, f.2.2.2.1]
  · rw [r.2.2.2.1, hs.2.1]
    exact hfc m
  · rw [r.2.2.2.2.1, hs.1, f.2.2.2.2.1]
  · rw [r.2.2.2.2.2, hs.2.2, f.2.2.2.2.2]

/-- Leaving calibration mode, for every model, prior flag assignment and body (one that raises, too), enabled or not: every quantiser of the model
quantises. -/
theorem C48_quantisation_enabled (T : ModelTree M) (model : M) (n : ℕ) (enabled : Bool) (body : ModelState M → ModelState M) (st : ModelState M) :
    QuantisationOn T model (withCalibrationMode T model n enabled body st) := by
  obtain ⟨r, hr⟩ : ∃ r, r = (CalibrationMode.new model enabled st).enter T model n st := ⟨_, rfl⟩
  have e : withCalibrationMode T model n enabled body st = r.1.exit T model (body r.2) := by rw [hr]; rfl
  have h := exit_facts T model r.1 (body r.2)
  rw [← e] at h
  exact ⟨h.1, fun p hp hk m hm ho => h.2.2.1 m ⟨p, hp, hk, hm⟩ ho⟩

/-- Leaving calibration mode, for every model, prior flag assignment and body: every flag for returning quantised tensors is as on entry. -/
theorem C48_return_flags_restored (T : ModelTree M) (model : M) (n : ℕ) (body : ModelState M → ModelState M) (st : ModelState M) (m : M)
    (hm : m ∈ T.sub model) (hr : T.hasReturn m = true) :
    (withCalibrationMode T model n true body st).returnQuantTensor m = st.returnQuantTensor m := by
  have h := (exit_facts T model ((CalibrationMode.new model true st).enter T model n st).1
    (body ((CalibrationMode.new model true st).enter T model n st).2)).2.2.2.2.2.2.1 m
  refine h.trans ?_
  rw [if_pos ⟨hm, hr⟩, enter_eq]
  simp [disableReturnQuantTensor, hm, hr, (extend_same T model n st).2.2.2.1]

/-- Leaving calibration mode, for every model, prior flag assignment and body, enabled or not: all parts of quantisers are in training mode if the
model was when the context manager was made; the training flags of other modules are those that the body leaves. -/
theorem C48_training_flags (T : ModelTree M) (model : M) (n : ℕ) (enabled : Bool) (body : ModelState M → ModelState M) (st : ModelState M) (m : M) :
    (InProxy T model m → (withCalibrationMode T model n enabled body st).training m = st.training model) ∧
      (¬ InProxy T model m → (withCalibrationMode T model n enabled body st).training m =
        (body ((CalibrationMode.new model enabled st).enter T model n st).2).training m) := by
  have h := exit_facts T model ((CalibrationMode.new model enabled st).enter T model n st).1
    (body ((CalibrationMode.new model enabled st).enter T model n st).2)
  refine ⟨fun hm => (h.2.2.2.2.1 m hm).trans ?_, fun hm => h.2.2.2.2.2.1 m hm⟩
  cases enabled <;> rfl

/-- Leaving calibration mode: no collector of statistics collects any more. -/
theorem C48_collection_ended (T : ModelTree M) (model : M) (n : ℕ) (enabled : Bool) (body : ModelState M → ModelState M) (st : ModelState M) (m : M)
    (hm : m ∈ T.sub model) (hs : T.hasSteps m = true) (hc : T.hasCounter m = true) :
    (withCalibrationMode T model n enabled body st).steps m ≤ (withCalibrationMode T model n enabled body st).counter m := by
  obtain ⟨r, hr⟩ : ∃ r, r = (CalibrationMode.new model enabled st).enter T model n st := ⟨_, rfl⟩
  have e : withCalibrationMode T model n enabled body st = r.1.exit T model (body r.2) := by rw [hr]; rfl
  have h := exit_facts T model r.1 (body r.2)
  rw [← e] at h
  rw [h.2.2.2.2.2.2.2.1 m, if_pos ⟨hm, hs, hc⟩, h.2.2.2.2.2.2.2.2.1]
  omega

/-- Full restoration: if on entry all quantisers are on and in the model's training mode, and the body changes none of the flags, then leaving
calibration mode restores all of them, those of modules outside quantisers included. Missing: other prior flag assignments, for which it fails
(`C48_disabled_lost`, `C48_frozen_lost`). -/
theorem C48_restored_partial (T : ModelTree M) (model : M) (n : ℕ) (body : ModelState M → ModelState M) (st : ModelState M)
    (husual : Usual T model st) (hbody : ∀ s, SameFlags s (body s)) : SameFlags st (withCalibrationMode T model n true body st) := by
  obtain ⟨s0, h0⟩ : ∃ s, s = extendCollectStats T model n st := ⟨_, rfl⟩
  obtain ⟨s1, h1⟩ : ∃ s, s = (disableReturnQuantTensor T model s0).2 := ⟨_, rfl⟩
  obtain ⟨s2, h2⟩ : ∃ s, s = disableActQuantization T true model true s1 := ⟨_, rfl⟩
  obtain ⟨s3, h3⟩ : ∃ s, s = disableParamQuantization T model true s2 := ⟨_, rfl⟩
  have a := disableAct_observe T model true s1
  have b := disableParam_switched T model true s2
  rw [← h2] at a
  rw [← h3] at b
  have e0 := extend_same T model n st
  rw [← h0] at e0
  have e1 := disableReturn_same T model s0
  rw [← h1] at e1
  have eb := hbody s3
  have h := exit_facts T model ⟨st.training model, true, (disableReturnQuantTensor T model s0).1⟩ (body s3)
  have e : withCalibrationMode T model n true body st =
      (CalibrationMode.mk (st.training model) true (disableReturnQuantTensor T model s0).1).exit T model (body s3) := by
    rw [h3, h2, h1, h0]; rfl
  rw [← e] at h
  refine ⟨funext fun m => ?_, funext fun m => ?_, funext fun m => ?_, funext fun m => ?_⟩
  · by_cases hm : InProxy T model m
    · rw [h.2.2.2.2.1 m hm, husual.2 m hm]
    · rw [h.2.2.2.2.2.1 m hm, eb.1]
      rw [inProxy_iff] at hm
      push Not at hm
      rw [b.training_out m (by simp [hm]), a.training_out m (by simp [hm]), e1.1, e0.1]
  · by_cases hm : m ∈ T.sub model ∧ T.kind m ≠ .other
    · rw [h.1 m hm.1 hm.2, husual.1.1 m hm.1 hm.2]
    · rw [h.2.1 m hm, eb.2.1, b.disable_out m fun h => hm ⟨h.1, fun hk => (by simp [hk] at h)⟩,
        a.disable_out m fun h => hm ⟨h.1, fun hk => (by simp [hk] at h)⟩, e1.2.1, e0.2.1]
  · by_cases hm : T.hasObserver m = true ∧ InsideProxy T model .act m
    · obtain ⟨ho, p, hp, hk, hmp⟩ := hm
      rw [h.2.2.1 m ⟨p, hp, hk, hmp⟩ ho, husual.1.2 p hp hk m hmp ho]
    · rw [h.2.2.2.1 m hm, eb.2.2.1, b.observer_out m (by simp), a.observer_out m (by simpa using hm), e1.2.2.1, e0.2.2.1]
  · by_cases hm : m ∈ T.sub model ∧ T.hasReturn m = true
    · rw [h.2.2.2.2.2.2.1 m, if_pos hm]
      simp [disableReturnQuantTensor, hm, e0.2.2.2.1]
    · rw [h.2.2.2.2.2.2.1 m, if_neg hm, eb.2.2.2, b.return_same, a.return_same, h1, (disableReturn_apply T model s0 m).2 hm, e0.2.2.2.1]

/-- Non-vacuity: the example's flags, restored after a calibration in which statistics are counted. -/
example : SameFlags (demoState true)
    (withCalibrationMode demoModel 0 1000 true (fun s => { s with counter := fun _ => 17 }) (demoState true)) :=
  C48_restored_partial _ _ _ _ _ (demoState_usual _) fun _ => ⟨rfl, rfl, rfl, rfl⟩

example : (withCalibrationMode demoModel 0 1000 true id (demoState true)).counter 4 = 1000 ∧
    InProxy demoModel 0 4 ∧ ¬ InProxy demoModel 0 1 := by
  refine ⟨by decide +kernel, ⟨3, by decide, by decide, by decide⟩, ?_⟩
  rintro ⟨p, -, hk, hm⟩
  revert p
  decide

/-- A quantiser that is disabled on entry (a layer kept in floating point) is enabled on leaving. -/
theorem C48_disabled_lost : ∃ (T : ModelTree (Fin 6)) (st : ModelState (Fin 6)), st.disableQuant 2 = true ∧
    (withCalibrationMode T 0 1000 true id st).disableQuant 2 = false :=
  ⟨demoModel, { demoState true with disableQuant := fun m => m = 2 }, by decide +kernel, by decide +kernel⟩

/-- A quantiser that is in evaluation mode on entry, in a model in training mode, is in training mode on leaving. -/
theorem C48_frozen_lost : ∃ (T : ModelTree (Fin 6)) (st : ModelState (Fin 6)), st.training 3 = false ∧
    (withCalibrationMode T 0 1000 true id st).training 3 = true :=
  ⟨demoModel, { demoState true with training := fun m => m ≠ 3 }, by decide +kernel, by decide +kernel⟩

/-- With `enabled=False`, leaving ends the collection of statistics (which had gone through 5 of 300 steps) and enables a disabled quantiser. -/
theorem C48_not_enabled : ∃ (T : ModelTree (Fin 6)) (st : ModelState (Fin 6)), st.counter 4 = 5 ∧ st.disableQuant 2 = true ∧
    (withCalibrationMode T 0 1000 false id st).counter 4 = 300 ∧ (withCalibrationMode T 0 1000 false id st).disableQuant 2 = false :=
  ⟨demoModel, { demoState true with disableQuant := fun m => m = 2 }, by decide +kernel, by decide +kernel, by decide +kernel, by decide +kernel⟩

/-- If the model's training mode changes between making the context manager and entering it, leaving restores the former: here quantisers are in
training mode in a model in evaluation mode. -/
theorem C48_made_before_entering : ∃ (T : ModelTree (Fin 6)) (st₀ st : ModelState (Fin 6)), st.training 0 = false ∧ st.training 3 = false ∧
    (let r := (CalibrationMode.new 0 true st₀).enter T 0 1000 st
     (r.1.exit T 0 r.2).training 0 = false ∧ (r.1.exit T 0 r.2).training 3 = true) :=
  ⟨demoModel, demoState true, demoState false, rfl, rfl, by decide +kernel⟩

/-- The number of steps and the kind of average are not restored: collectors keep an unlimited number of steps and a true average. -/
theorem C48_collectors_changed (T : ModelTree M) (model : M) (n : ℕ) (st : ModelState M) (m : M) (hm : m ∈ T.sub model)
    (hs : T.hasSteps m = true) (hmo : T.hasMomentum m = true) :
    (withCalibrationMode T model n true id st).steps m = n ∧ (withCalibrationMode T model n true id st).trueAverage m = true := by
  have h := exit_facts T model ((CalibrationMode.new model true st).enter T model n st).1
    ((CalibrationMode.new model true st).enter T model n st).2
  have h' := C48_inside T model n st
  exact ⟨(congrFun h.2.2.2.2.2.2.2.2.1 m).trans (h'.2.2.2.2.1 m hm hs), (congrFun h.2.2.2.2.2.2.2.2.2 m).trans (h'.2.2.2.2.2 m hm hs hmo)⟩

example : (demoState true).steps 4 = 300 ∧ (withCalibrationMode demoModel 0 1000 true id (demoState true)).steps 4 = 1000 :=
  ⟨rfl, (C48_collectors_changed demoModel 0 1000 (demoState true) 4 (by decide) rfl rfl).1⟩

/-! ## GPTQ -/

/-- With quantised activations, `gptq_mode` changes no flag. -/
theorem C48_gptq_quant_activations (T : ModelTree M) (model : M) (body : ModelState M → ModelState M) (st : ModelState M) :
    withGptqMode T model true body st = body st := rfl

/-- `gptq_mode` without quantised activations restores, for every model, prior flag assignment and body, the flags for returning quantised
tensors, and enables all quantisers of activations and biases. -/
theorem C48_gptq (T : ModelTree M) (model : M) (body : ModelState M → ModelState M) (st : ModelState M) :
    (∀ m ∈ T.sub model, T.hasReturn m = true → (withGptqMode T model false body st).returnQuantTensor m = st.returnQuantTensor m) ∧
      ∀ p ∈ T.sub model, T.kind p = .act ∨ T.kind p = .acc ∨ T.kind p = .bias → (withGptqMode T model false body st).disableQuant p = false := by
  obtain ⟨r, hr⟩ : ∃ r, r = gpxqEnter T model false st := ⟨_, rfl⟩
  obtain ⟨s, hs⟩ : ∃ s, s = body r.2 := ⟨_, rfl⟩
  obtain ⟨s1, h1⟩ : ∃ s1, s1 = enableActQuantization T model (s.training model) s := ⟨_, rfl⟩
  obtain ⟨s2, h2⟩ : ∃ s2, s2 = enableBiasQuantization T model (s1.training model) s1 := ⟨_, rfl⟩
  have e : withGptqMode T model false body st = restoreReturnQuantTensor T model r.1 s2 := by rw [h2, h1, hs, hr]; rfl
  have a := enableAct_switched T model (s.training model) s
  have b := enableBias_switched T model (s1.training model) s1
  rw [← h1] at a
  rw [← h2] at b
  rw [e]
  refine ⟨fun m hm hret => ?_, fun p hp hk => ?_⟩
  · rw [restoreReturn_apply, if_pos ⟨hm, hret⟩, hr]
    simp [gpxqEnter, disableReturnQuantTensor, hm, hret]
  · rw [(restoreReturn_same T model r.1 s2).2.1]
    rcases hk with hk | hk | hk
    · rw [b.disable_out p (by simp [hk])]; exact a.disable_in p hp (by simp [hk])
    · rw [b.disable_out p (by simp [hk])]; exact a.disable_in p hp (by simp [hk])
    · exact b.disable_in p hp (by simp [hk])

/-- Leaving `gpxq_mode` without quantised activations, from the state that its `__enter__` made. -/
theorem gptq_restored (T : ModelTree M) (model : M) (body : ModelState M → ModelState M) (st : ModelState M)
    (husual : Usual T model st) (hbody : ∀ s, SameFlags s (body s)) : SameFlags st (withGptqMode T model false body st) := by
  obtain ⟨t0, g0⟩ : ∃ s, s = (disableReturnQuantTensor T model st).2 := ⟨_, rfl⟩
  obtain ⟨t1, g1⟩ : ∃ s, s = disableActQuantization T false model (t0.training model) t0 := ⟨_, rfl⟩
  obtain ⟨t2, g2⟩ : ∃ s, s = disableBiasQuantization T model (t1.training model) t1 := ⟨_, rfl⟩
  obtain ⟨s, hs⟩ : ∃ s, s = body t2 := ⟨_, rfl⟩
  obtain ⟨s1, h1⟩ : ∃ s1, s1 = enableActQuantization T model (s.training model) s := ⟨_, rfl⟩
  obtain ⟨s2, h2⟩ : ∃ s2, s2 = enableBiasQuantization T model (s1.training model) s1 := ⟨_, rfl⟩
  have e : withGptqMode T model false body st = restoreReturnQuantTensor T model (disableReturnQuantTensor T model st).1 s2 := by
    rw [h2, h1, hs, g2, g1, g0]; rfl
  have c := disableAct_off T model (t0.training model) t0
  have d := disableBias_switched T model (t1.training model) t1
  have a := enableAct_switched T model (s.training model) s
  have b := enableBias_switched T model (s1.training model) s1
  have f := hbody t2
  have r := restoreReturn_same T model (disableReturnQuantTensor T model st).1 s2
  have q := disableReturn_same T model st
  rw [← g1] at c
  rw [← g2] at d
  rw [← h1] at a
  rw [← h2] at b
  rw [← hs] at f
  rw [← g0] at q
  rw [← e] at r
  -- training mode is the model's throughout
  have u0 : ∀ m, t0.training m = st.training m := congrFun q.1
  have v := husual.2
  have step : ∀ (ks : List ModuleKind) ds dd os o (x y : ModelState M), (.other ∉ ks) →
      Switched T model ks (x.training model) ds dd os o x y → (∀ m, x.training m = st.training m) → ∀ m, y.training m = st.training m := by
    intro ks ds dd os o x y hks sw hx m
    by_cases hm : ∃ k ∈ ks, InsideProxy T model k m
    · obtain ⟨k, hk, hin⟩ := hm
      rw [sw.training_in m k hk hin, hx]
      obtain ⟨p, hp, hkp, hmp⟩ := hin
      exact (v m ⟨p, hp, fun h => hks (by rw [← h, hkp]; exact hk), hmp⟩).symm
    · rw [sw.training_out m fun k hk h => hm ⟨k, hk, h⟩, hx]
  have u1 := step _ _ _ _ _ t0 t1 (by simp) c u0
  have u2 := step _ _ _ _ _ t1 t2 (by simp) d u1
  have u3 : ∀ m, s.training m = st.training m := fun m => by rw [f.1]; exact u2 m
  have u4 := step _ _ _ _ _ s s1 (by simp) a u3
  have u5 := step _ _ _ _ _ s1 s2 (by simp) b u4
  refine ⟨funext fun m => ?_, funext fun m => ?_, funext fun m => ?_, funext fun m => ?_⟩
  · rw [r.1, u5]
  · rw [r.2.1]
    by_cases hm : m ∈ T.sub model
    · cases hk : T.kind m with
      | act =>
        rw [b.disable_out m (by simp [hk]), a.disable_in m hm (by simp [hk]), husual.1.1 m hm (by simp [hk])]
      | acc =>
        rw [b.disable_out m (by simp [hk]), a.disable_in m hm (by simp [hk]), husual.1.1 m hm (by simp [hk])]
      | bias => rw [b.disable_in m hm (by simp [hk]), husual.1.1 m hm (by simp [hk])]
      | weight =>
        rw [b.disable_out m (by simp [hk]), a.disable_out m (by simp [hk]), f.2.1, d.disable_out m (by simp [hk]),
          c.disable_out m (by simp [hk]), q.2.1]
      | other =>
        rw [b.disable_out m (by simp [hk]), a.disable_out m (by simp [hk]), f.2.1, d.disable_out m (by simp [hk]),
          c.disable_out m (by simp [hk]), q.2.1]
    · rw [b.disable_out m (by simp [hm]), a.disable_out m (by simp [hm]), f.2.1, d.disable_out m (by simp [hm]),
        c.disable_out m (by simp [hm]), q.2.1]
  · rw [r.2.2.1, b.observer_out m (by simp)]
    by_cases hm : T.hasObserver m = true ∧ InsideProxy T model .act m
    · obtain ⟨ho, p, hp, hk, hmp⟩ := hm
      rw [a.observer_in m .act (by simp) ⟨p, hp, hk, hmp⟩ ho, husual.1.2 p hp hk m hmp ho]
    · rw [a.observer_out m (by simpa using hm), f.2.2.1, d.observer_out m (by simp), c.observer_out m (by simp), q.2.2.1]
  · rw [e, restoreReturn_apply, b.return_same, a.return_same, f.2.2.2, d.return_same, c.return_same, g0]
    by_cases hm : m ∈ T.sub model ∧ T.hasReturn m = true
    · rw [if_pos hm]
      simp [disableReturnQuantTensor, hm]
    · rw [if_neg hm, (disableReturn_apply T model st m).2 hm]

/-- Full restoration by `gptq_mode`, from the usual state. Missing: other prior flag assignments, as for calibration. -/
theorem C48_gptq_restored_partial (T : ModelTree M) (model : M) (useQuantActivations : Bool) (body : ModelState M → ModelState M)
    (st : ModelState M) (husual : Usual T model st) (hbody : ∀ s, SameFlags s (body s)) :
    SameFlags st (withGptqMode T model useQuantActivations body st) := by
  cases useQuantActivations with
  | true => exact hbody st
  | false => exact gptq_restored T model body st husual hbody

example : SameFlags (demoState true) (withGptqMode demoModel 0 false id (demoState true)) ∧
    (gpxqEnter demoModel 0 false (demoState true)).2.disableQuant 3 = true ∧
    (gpxqEnter demoModel 0 false (demoState true)).2.disableQuant 2 = false :=
  ⟨C48_gptq_restored_partial _ _ _ _ _ (demoState_usual _) fun _ => ⟨rfl, rfl, rfl, rfl⟩, by decide +kernel, by decide +kernel⟩

/-! ## GPFQ -/

/-- The state after one forward pass with GPFQ. -/
theorem gpfqForward_facts (T : ModelTree M) (model : M) (q : Bool) (st : ModelState M) :
    let st' := (gpfqForward T model q false st).2
    st'.returnQuantTensor = st.returnQuantTensor ∧
      (∀ m, InProxy T model m → st'.training m = false) ∧ (∀ m, ¬ InProxy T model m → st'.training m = st.training m) ∧
      (∀ p ∈ T.sub model, T.kind p = .weight → st'.disableQuant p = false) ∧
      (∀ p ∈ T.sub model, T.kind p = .act ∨ T.kind p = .acc ∨ T.kind p = .bias → st'.disableQuant p = !q) ∧
      (∀ m, ¬ (m ∈ T.sub model ∧ T.kind m ≠ .other) → st'.disableQuant m = st.disableQuant m) ∧
      (q = true → ∀ m, T.hasObserver m = true → InsideProxy T model .act m → st'.observerOnly m = false) ∧
      ∀ m, ¬ (T.hasObserver m = true ∧ InsideProxy T model .act m) → st'.observerOnly m = st.observerOnly m := by
  intro st'
  obtain ⟨s0, h0⟩ : ∃ s, s = (disableReturnQuantTensor T model st).2 := ⟨_, rfl⟩
  obtain ⟨s1, h1⟩ : ∃ s, s = disableParamQuantization T model false s0 := ⟨_, rfl⟩
  obtain ⟨s2, h2⟩ : ∃ s, s = disableActQuantization T false model false s1 := ⟨_, rfl⟩
  obtain ⟨s3, h3⟩ : ∃ s, s = enableParamQuantization T model false s2 := ⟨_, rfl⟩
  obtain ⟨s4, h4⟩ : ∃ s, s = if q then enableActQuantization T model false s3 else disableBiasQuantization T model false s3 := ⟨_, rfl⟩
  have e : st' = restoreReturnQuantTensor T model (disableReturnQuantTensor T model st).1 s4 := by rw [h4, h3, h2, h1, h0]; rfl
  have a := disableParam_switched T model false s0
  have b := disableAct_off T model false s1
  have c := enableParam_switched T model false s2
  rw [← h1] at a
  rw [← h2] at b
  rw [← h3] at c
  have f := disableReturn_same T model st
  rw [← h0] at f
  have r := restoreReturn_same T model (disableReturnQuantTensor T model st).1 s4
  rw [← e] at r
  have hret : s4.returnQuantTensor = s3.returnQuantTensor := by
    rw [h4]
    cases q
    · exact (disableBias_switched T model false s3).return_same
    · exact (enableAct_switched T model false s3).return_same
  -- training flags
  have tin : ∀ m, InProxy T model m → s3.training m = false := by
    intro m hm
    by_cases hw : InsideProxy T model .weight m
    · exact c.training_in m _ (by simp) hw
    by_cases hb : InsideProxy T model .bias m
    · exact c.training_in m _ (by simp) hb
    rw [c.training_out m (by simp [hw, hb])]
    rcases (inProxy_iff T model m).mp hm with h | h | h | h
    · exact b.training_in m _ (by simp) h
    · exact b.training_in m _ (by simp) h
    · exact absurd h hw
    · exact absurd h hb
  have tout : ∀ m, ¬ InProxy T model m → s3.training m = st.training m := by
    intro m hm
    rw [inProxy_iff] at hm
    push Not at hm
    rw [c.training_out m (by simp [hm]), b.training_out m (by simp [hm]), a.training_out m (by simp [hm]), f.1]
  have dout : ∀ m, ¬ (m ∈ T.sub model ∧ T.kind m ≠ .other) → s3.disableQuant m = st.disableQuant m := by
    intro m hm
    rw [c.disable_out m fun h => hm ⟨h.1, fun hk => (by simp [hk] at h)⟩,
      b.disable_out m fun h => hm ⟨h.1, fun hk => (by simp [hk] at h)⟩,
      a.disable_out m fun h => hm ⟨h.1, fun hk => (by simp [hk] at h)⟩, f.2.1]
  have oall : ∀ m, s3.observerOnly m = st.observerOnly m := fun m => by
    rw [c.observer_out m (by simp), b.observer_out m (by simp), a.observer_out m (by simp), f.2.2.1]
  refine ⟨funext fun m => ?_, fun m hm => ?_, fun m hm => ?_, fun p hp hk => ?_, fun p hp hk => ?_, fun m hm => ?_, fun hq m ho hm => ?_,
    fun m hm => ?_⟩
  · rw [e, restoreReturn_apply, hret, c.return_same, b.return_same, a.return_same, h0]
    by_cases hm : m ∈ T.sub model ∧ T.hasReturn m = true
    · rw [if_pos hm]
      simp [disableReturnQuantTensor, hm]
    · rw [if_neg hm, (disableReturn_apply T model st m).2 hm]
  · rw [r.1, h4]
    cases q with
    | true =>
      have sw := enableAct_switched T model false s3
      by_cases h1 : InsideProxy T model .act m
      · exact sw.training_in m _ (by simp) h1
      by_cases h2 : InsideProxy T model .acc m
      · exact sw.training_in m _ (by simp) h2
      exact (sw.training_out m (by simp [h1, h2])).trans (tin m hm)
    | false =>
      have sw := disableBias_switched T model false s3
      by_cases h1 : InsideProxy T model .bias m
      · exact sw.training_in m _ (by simp) h1
      exact (sw.training_out m (by simp [h1])).trans (tin m hm)
  · have hm' := hm
    rw [inProxy_iff] at hm'
    push Not at hm'
    rw [r.1, h4]
    cases q with
    | true => exact ((enableAct_switched T model false s3).training_out m (by simp [hm'])).trans (tout m hm)
    | false => exact ((disableBias_switched T model false s3).training_out m (by simp [hm'])).trans (tout m hm)
  · rw [r.2.1, h4]
    cases q with
    | true => exact ((enableAct_switched T model false s3).disable_out p (by simp [hk])).trans (c.disable_in p hp (by simp [hk]))
    | false => exact ((disableBias_switched T model false s3).disable_out p (by simp [hk])).trans (c.disable_in p hp (by simp [hk]))
  · rw [r.2.1, h4]
    cases q with
    | true =>
      have sw := enableAct_switched T model false s3
      rcases hk with hk | hk | hk
      · exact sw.disable_in p hp (by simp [hk])
      · exact sw.disable_in p hp (by simp [hk])
      · exact (sw.disable_out p (by simp [hk])).trans (c.disable_in p hp (by simp [hk]))
    | false =>
      have sw := disableBias_switched T model false s3
      rcases hk with hk | hk | hk
      · exact (sw.disable_out p (by simp [hk])).trans ((c.disable_out p (by simp [hk])).trans (b.disable_in p hp (by simp [hk])))
      · exact (sw.disable_out p (by simp [hk])).trans ((c.disable_out p (by simp [hk])).trans (b.disable_in p hp (by simp [hk])))
      · exact sw.disable_in p hp (by simp [hk])
  · rw [r.2.1, h4]
    cases q with
    | true =>
      exact ((enableAct_switched T model false s3).disable_out m fun h => hm ⟨h.1, fun hk => (by simp [hk] at h)⟩).trans (dout m hm)
    | false =>
      exact ((disableBias_switched T model false s3).disable_out m fun h => hm ⟨h.1, fun hk => (by simp [hk] at h)⟩).trans (dout m hm)
  · subst hq
    rw [r.2.2.1, h4]
    exact (enableAct_switched T model false s3).observer_in m .act (by simp) hm ho
  · rw [r.2.2.1, h4]
    cases q with
    | true => exact ((enableAct_switched T model false s3).observer_out m (by simpa using hm)).trans (oall m)
    | false => exact ((disableBias_switched T model false s3).observer_out m (by simp)).trans (oall m)

/-- Several forward passes, from any state. -/
def gpfqPasses (T : ModelTree M) (model : M) (q : Bool) (passes : List Bool) (r : (M → Option Bool) × ModelState M) :
    (M → Option Bool) × ModelState M := passes.foldl (fun r raises => gpfqForward T model q raises r.2) r

theorem gpfqPasses_append (T : ModelTree M) (model : M) (q : Bool) (passes : List Bool) (b : Bool) (r : (M → Option Bool) × ModelState M) :
    gpfqPasses T model q (passes ++ [b]) r = gpfqForward T model q b (gpfqPasses T model q passes r).2 := by
  simp [gpfqPasses]

/-- A pass never turns a flag on that is off. -/
theorem gpfqForward_return_off (T : ModelTree M) (model : M) (q b : Bool) (st : ModelState M)
    (h : ∀ m ∈ T.sub model, T.hasReturn m = true → st.returnQuantTensor m = false) :
    (∀ m ∈ T.sub model, T.hasReturn m = true → (gpfqForward T model q b st).1 m = some false) ∧
      ∀ m ∈ T.sub model, T.hasReturn m = true → (gpfqForward T model q b st).2.returnQuantTensor m = false := by
  have h1 : (gpfqForward T model q b st).1 = (disableReturnQuantTensor T model st).1 := by cases b <;> rfl
  refine ⟨fun m hm hr => ?_, fun m hm hr => ?_⟩
  · rw [h1]
    simp [disableReturnQuantTensor, hm, hr, h m hm hr]
  · cases b with
    | false => rw [(gpfqForward_facts T model q st).1, h m hm hr]
    | true =>
      have a := disableParam_switched T model false (disableReturnQuantTensor T model st).2
      have b := disableAct_off T model false (disableParamQuantization T model false (disableReturnQuantTensor T model st).2)
      refine (congrFun (b.return_same.trans a.return_same) m).trans ?_
      exact (disableReturn_apply T model st m).1 hm hr

/-- `gpfq_mode` without quantised activations, for every model and prior flag assignment: after a forward pass, no layer returns quantised
tensors any more, also after leaving. -/
theorem C48_gpfq_return_flags_lost (T : ModelTree M) (model : M) (passes : List Bool) (hne : passes ≠ []) (st : ModelState M) (m : M)
    (hm : m ∈ T.sub model) (hr : T.hasReturn m = true) : (withGpfqMode T model false passes st).returnQuantTensor m = false := by
  have key : ∀ (r : (M → Option Bool) × ModelState M), (∀ m ∈ T.sub model, T.hasReturn m = true → r.2.returnQuantTensor m = false) →
      (∀ m ∈ T.sub model, T.hasReturn m = true → (gpfqPasses T model false passes r).1 m = some false) := by
    induction passes with
    | nil => exact absurd rfl hne
    | cons b passes ih =>
      intro r h
      have hb := gpfqForward_return_off T model false b r.2 h
      by_cases hp : passes = []
      · subst hp
        exact hb.1
      · exact ih hp (gpfqForward T model false b r.2) hb.2
  obtain ⟨r0, h0⟩ : ∃ r, r = gpxqEnter T model false st := ⟨_, rfl⟩
  have henter : ∀ m ∈ T.sub model, T.hasReturn m = true → r0.2.returnQuantTensor m = false := by
    intro m hm hr
    have a := disableAct_off T model ((disableReturnQuantTensor T model st).2.training model) (disableReturnQuantTensor T model st).2
    have b := disableBias_switched T model
      ((disableActQuantization T false model ((disableReturnQuantTensor T model st).2.training model)
        (disableReturnQuantTensor T model st).2).training model)
      (disableActQuantization T false model ((disableReturnQuantTensor T model st).2.training model) (disableReturnQuantTensor T model st).2)
    rw [h0]
    exact (congrFun (b.return_same.trans a.return_same) m).trans ((disableReturn_apply T model st m).1 hm hr)
  obtain ⟨r, hrr⟩ : ∃ r, r = gpfqPasses T model false passes r0 := ⟨_, rfl⟩
  have e : withGpfqMode T model false passes st = gpxqExit T model false r.1 r.2 := by rw [hrr, h0]; rfl
  have hsaved := key r0 henter m hm hr
  rw [← hrr] at hsaved
  rw [e]
  refine (restoreReturn_apply T model r.1 _ m).trans ?_
  rw [if_pos ⟨hm, hr⟩, hsaved]
  rfl

example : (demoState true).returnQuantTensor 1 = true ∧
    (withGpfqMode demoModel 0 false [false] (demoState true)).returnQuantTensor 1 = false :=
  ⟨rfl, C48_gpfq_return_flags_lost demoModel 0 [false] (by simp) _ 1 (by decide) rfl⟩

/-- The invariant of forward passes that do not raise. -/
theorem gpfqPasses_facts (T : ModelTree M) (model : M) (q : Bool) (n : ℕ) (r : (M → Option Bool) × ModelState M) :
    let r' := gpfqPasses T model q (List.replicate n false) r
    r'.2.returnQuantTensor = r.2.returnQuantTensor ∧
      (0 < n → ∀ m, InProxy T model m → r'.2.training m = false) ∧ (∀ m, ¬ InProxy T model m → r'.2.training m = r.2.training m) ∧
      (0 < n → ∀ p ∈ T.sub model, T.kind p = .weight → r'.2.disableQuant p = false) ∧
      (0 < n → ∀ p ∈ T.sub model, T.kind p = .act ∨ T.kind p = .acc ∨ T.kind p = .bias → r'.2.disableQuant p = !q) ∧
      (∀ m, ¬ (m ∈ T.sub model ∧ T.kind m ≠ .other) → r'.2.disableQuant m = r.2.disableQuant m) ∧
      (0 < n → q = true → ∀ m, T.hasObserver m = true → InsideProxy T model .act m → r'.2.observerOnly m = false) ∧
      ∀ m, ¬ (T.hasObserver m = true ∧ InsideProxy T model .act m) → r'.2.observerOnly m = r.2.observerOnly m := by
  induction n with
  | zero =>
    refine ⟨rfl, ?_, fun _ _ => rfl, ?_, ?_, fun _ _ => rfl, ?_, fun _ _ => rfl⟩ <;> intro h <;> exact absurd h (Nat.lt_irrefl 0)
  | succ n ih =>
    intro r'
    have e : r' = gpfqForward T model q false (gpfqPasses T model q (List.replicate n false) r).2 := by
      have : List.replicate (n + 1) false = List.replicate n false ++ [false] := List.replicate_succ'
      rw [← gpfqPasses_append, ← this]
    clear_value r'
    have h := gpfqForward_facts T model q (gpfqPasses T model q (List.replicate n false) r).2
    rw [← e] at h
    exact ⟨h.1.trans ih.1, fun _ => h.2.1, fun m hm => (h.2.2.1 m hm).trans (ih.2.2.1 m hm), fun _ => h.2.2.2.1, fun _ => h.2.2.2.2.1,
      fun m hm => (h.2.2.2.2.2.1 m hm).trans (ih.2.2.2.2.2.1 m hm), fun _ => h.2.2.2.2.2.2.1,
      fun m hm => (h.2.2.2.2.2.2.2 m hm).trans (ih.2.2.2.2.2.2.2 m hm)⟩

/-- `gpfq_mode` with quantised activations restores the flags for returning quantised tensors after passes that do not raise, for every model and
prior flag assignment. -/
theorem C48_gpfq_return_flags (T : ModelTree M) (model : M) (n : ℕ) (st : ModelState M) :
    (withGpfqMode T model true (List.replicate n false) st).returnQuantTensor = st.returnQuantTensor :=
  (gpfqPasses_facts T model true n (fun _ => none, st)).1

/-- After at least one forward pass with GPFQ, none of which raises, and leaving: all quantisers are on, for every model and prior flag
assignment. -/
theorem C48_gpfq_enabled (T : ModelTree M) (model : M) (q : Bool) (n : ℕ) (hn : 0 < n) (st : ModelState M) :
    QuantisationOn T model (withGpfqMode T model q (List.replicate n false) st) := by
  obtain ⟨r, hr⟩ : ∃ r, r = gpfqPasses T model q (List.replicate n false) (gpxqEnter T model q st) := ⟨_, rfl⟩
  have h := gpfqPasses_facts T model q n (gpxqEnter T model q st)
  rw [← hr] at h
  have e : withGpfqMode T model q (List.replicate n false) st = gpxqExit T model q r.1 r.2 := by rw [hr]; rfl
  rw [e]
  cases q with
  | true =>
    refine ⟨fun p hp hk => ?_, fun p hp hk m hm ho => h.2.2.2.2.2.2.1 hn rfl m ho ⟨p, hp, hk, hm⟩⟩
    cases h' : T.kind p with
    | weight => exact h.2.2.2.1 hn p hp h'
    | act => exact h.2.2.2.2.1 hn p hp (by simp [h'])
    | acc => exact h.2.2.2.2.1 hn p hp (by simp [h'])
    | bias => exact h.2.2.2.2.1 hn p hp (by simp [h'])
    | other => exact absurd h' hk
  | false =>
    obtain ⟨s1, h1⟩ : ∃ s1, s1 = enableActQuantization T model (r.2.training model) r.2 := ⟨_, rfl⟩
    obtain ⟨s2, h2⟩ : ∃ s2, s2 = enableBiasQuantization T model (s1.training model) s1 := ⟨_, rfl⟩
    have e' : gpxqExit T model false r.1 r.2 = restoreReturnQuantTensor T model r.1 s2 := by rw [h2, h1]; rfl
    have a := enableAct_switched T model (r.2.training model) r.2
    have b := enableBias_switched T model (s1.training model) s1
    have w := restoreReturn_same T model r.1 s2
    rw [← h1] at a
    rw [← h2] at b
    rw [← e'] at w
    refine ⟨fun p hp hk => ?_, fun p hp hk m hm ho => ?_⟩
    · rw [w.2.1]
      cases h' : T.kind p with
      | weight => rw [b.disable_out p (by simp [h']), a.disable_out p (by simp [h'])]; exact h.2.2.2.1 hn p hp h'
      | act => rw [b.disable_out p (by simp [h'])]; exact a.disable_in p hp (by simp [h'])
      | acc => rw [b.disable_out p (by simp [h'])]; exact a.disable_in p hp (by simp [h'])
      | bias => exact b.disable_in p hp (by simp [h'])
      | other => exact absurd h' hk
    · rw [w.2.2.1, b.observer_out m (by simp)]
      exact a.observer_in m .act (by simp) ⟨p, hp, hk, hm⟩ ho

/-- After at least one forward pass with GPFQ and quantised activations, all quantisers are in evaluation mode, whatever the training mode of the
model, also after leaving. -/
theorem C48_gpfq_training_flags_lost (T : ModelTree M) (model : M) (n : ℕ) (hn : 0 < n) (st : ModelState M) (m : M) (hm : InProxy T model m) :
    (withGpfqMode T model true (List.replicate n false) st).training m = false :=
  (gpfqPasses_facts T model true n (fun _ => none, st)).2.1 hn m hm

example : (demoState true).training 3 = true ∧ (withGpfqMode demoModel 0 true [false] (demoState true)).training 0 = true ∧
    (withGpfqMode demoModel 0 true [false] (demoState true)).training 3 = false :=
  ⟨rfl, by decide +kernel, C48_gpfq_training_flags_lost demoModel 0 1 Nat.one_pos _ 3 ⟨3, by decide, by decide, by decide⟩⟩

/-- Full restoration by `gpfq_mode` with quantised activations, for a model in evaluation mode in its usual state and passes that do not raise.
Missing: everything else (`C48_gpfq_return_flags_lost`, `C48_gpfq_training_flags_lost`, `C48_gpfq_raises`). -/
theorem C48_gpfq_restored_partial (T : ModelTree M) (model : M) (n : ℕ) (st : ModelState M) (husual : Usual T model st)
    (heval : st.training model = false) : SameFlags st (withGpfqMode T model true (List.replicate n false) st) := by
  by_cases hn : 0 < n
  · have h := gpfqPasses_facts T model true n (fun _ => none, st)
    refine ⟨funext fun m => ?_, funext fun m => ?_, funext fun m => ?_, C48_gpfq_return_flags T model n st⟩
    · by_cases hm : InProxy T model m
      · rw [husual.2 m hm, heval]
        exact h.2.1 hn m hm
      · exact h.2.2.1 m hm
    · by_cases hm : m ∈ T.sub model ∧ T.kind m ≠ .other
      · rw [husual.1.1 m hm.1 hm.2]
        exact (C48_gpfq_enabled T model true n hn st).1 m hm.1 hm.2
      · exact h.2.2.2.2.2.1 m hm
    · by_cases hm : T.hasObserver m = true ∧ InsideProxy T model .act m
      · obtain ⟨ho, p, hp, hk, hmp⟩ := hm
        rw [husual.1.2 p hp hk m hmp ho]
        exact h.2.2.2.2.2.2.1 hn rfl m ho ⟨p, hp, hk, hmp⟩
      · exact h.2.2.2.2.2.2.2 m hm
  · obtain rfl : n = 0 := by omega
    exact ⟨rfl, rfl, rfl, rfl⟩

example : SameFlags (demoState false) (withGpfqMode demoModel 0 true [false, false] (demoState false)) :=
  C48_gpfq_restored_partial demoModel 0 2 _ (demoState_usual _) rfl

/-- An exception in the pass without quantisation leaves all quantisers of weights and activations disabled, also after leaving. -/
theorem C48_gpfq_raises (T : ModelTree M) (model : M) (n : ℕ) (st : ModelState M) (p : M) (hp : p ∈ T.sub model) (hk : T.kind p ≠ .other) :
    (withGpfqMode T model true (List.replicate n false ++ [true]) st).disableQuant p = true := by
  obtain ⟨s, hs⟩ : ∃ s, s = (gpfqPasses T model true (List.replicate n false) (gpxqEnter T model true st)).2 := ⟨_, rfl⟩
  obtain ⟨s0, h0⟩ : ∃ s0, s0 = (disableReturnQuantTensor T model s).2 := ⟨_, rfl⟩
  obtain ⟨s1, h1⟩ : ∃ s1, s1 = disableParamQuantization T model false s0 := ⟨_, rfl⟩
  have e : withGpfqMode T model true (List.replicate n false ++ [true]) st = disableActQuantization T false model false s1 := by
    have : withGpfqMode T model true (List.replicate n false ++ [true]) st =
        (gpfqPasses T model true (List.replicate n false ++ [true]) (gpxqEnter T model true st)).2 := rfl
    rw [this, gpfqPasses_append, ← hs, h1, h0]
    rfl
  have a := disableParam_switched T model false s0
  have b := disableAct_off T model false s1
  rw [← h1] at a
  rw [← e] at b
  cases h' : T.kind p with
  | act => exact b.disable_in p hp (by simp [h'])
  | acc => exact b.disable_in p hp (by simp [h'])
  | weight => rw [b.disable_out p (by simp [h'])]; exact a.disable_in p hp (by simp [h'])
  | bias => rw [b.disable_out p (by simp [h'])]; exact a.disable_in p hp (by simp [h'])
  | other => exact absurd h' hk

end Brevitas.Props
