import Verif.Model.Contexts
import Mathlib.Tactic.Common

/-! Effect of the loops over modules on each attribute. -/

namespace Brevitas

open ModelState

variable {M : Type*} [DecidableEq M]

theorem forEach_set {α : Type*} (get : ModelState M → M → α) (S : M → M → Prop) (v : α) (body : M → ModelState M → ModelState M)
    (m : M) (h1 : ∀ p st, S p m → get (body p st) m = v) (h2 : ∀ p st, ¬ S p m → get (body p st) m = get st m) (ms : List M)
    (st : ModelState M) :
    ((∃ p ∈ ms, S p m) → get (forEach ms body st) m = v) ∧ ((¬ ∃ p ∈ ms, S p m) → get (forEach ms body st) m = get st m) := by
  induction ms generalizing st with
  | nil => simp [forEach]
  | cons p ms ih =>
    have hc : forEach (p :: ms) body st = forEach ms body (body p st) := rfl
    rw [hc]
    refine ⟨fun hp => ?_, fun hp => ?_⟩
    · by_cases hr : ∃ q ∈ ms, S q m
      · exact (ih _).1 hr
      · rw [(ih _).2 hr]
        obtain ⟨q, hq, hs⟩ := hp
        rcases List.mem_cons.mp hq with rfl | hq
        · exact h1 _ _ hs
        · exact absurd ⟨q, hq, hs⟩ hr
    · rw [(ih _).2 fun ⟨q, hq, hs⟩ => hp ⟨q, List.mem_cons_of_mem _ hq, hs⟩]
      exact h2 _ _ fun hs => hp ⟨p, List.mem_cons_self, hs⟩

theorem forEach_same {α : Type*} (get : ModelState M → α) (body : M → ModelState M → ModelState M)
    (h : ∀ p st, get (body p st) = get st) (ms : List M) (st : ModelState M) : get (forEach ms body st) = get st := by
  induction ms generalizing st with
  | nil => rfl
  | cons p ms ih => exact (ih _).trans (h _ _)

/-! ### Observers -/

theorem setObservers_observer (T : ModelTree M) (b : Bool) (p : M) (st : ModelState M) (m : M) :
    (m ∈ T.sub p → T.hasObserver m = true → (setObservers T b p st).observerOnly m = b) ∧
      (¬ (m ∈ T.sub p ∧ T.hasObserver m = true) → (setObservers T b p st).observerOnly m = st.observerOnly m) := by
  have h := forEach_set (fun st => st.observerOnly) (fun q m => q = m ∧ T.hasObserver m = true) b
    (fun m st => if T.hasObserver m then st.setObserver m b else st) m
    (by rintro q st ⟨rfl, h⟩; simp [h, setObserver])
    (by
      intro q st hq
      by_cases ho : T.hasObserver q = true
      · have hne : m ≠ q := by rintro rfl; exact hq ⟨rfl, ho⟩
        simp [ho, setObserver, Function.update_of_ne hne]
      · simp [ho]) (T.sub p) st
  exact ⟨fun h1 h2 => h.1 ⟨m, h1, rfl, h2⟩, fun h1 => h.2 fun ⟨q, hq, hqm, ho⟩ => h1 ⟨hqm ▸ hq, ho⟩⟩

theorem setObservers_same {α : Type*} (get : ModelState M → α) (hget : ∀ st q b, get (setObserver q b st) = get st) (T : ModelTree M)
    (b : Bool) (p : M) (st : ModelState M) : get (setObservers T b p st) = get st := by
  refine forEach_same get _ (fun q st => ?_) _ _
  split
  · exact hget _ _ _
  · rfl

@[simp] theorem setObservers_training (T : ModelTree M) (b : Bool) (p : M) (st : ModelState M) :
    (setObservers T b p st).training = st.training := setObservers_same (·.training) (fun _ _ _ => rfl) T b p st

@[simp] theorem setObservers_disable (T : ModelTree M) (b : Bool) (p : M) (st : ModelState M) :
    (setObservers T b p st).disableQuant = st.disableQuant := setObservers_same (·.disableQuant) (fun _ _ _ => rfl) T b p st

@[simp] theorem setObservers_return (T : ModelTree M) (b : Bool) (p : M) (st : ModelState M) :
    (setObservers T b p st).returnQuantTensor = st.returnQuantTensor := setObservers_same (·.returnQuantTensor) (fun _ _ _ => rfl) T b p st

@[simp] theorem setObservers_stats (T : ModelTree M) (b : Bool) (p : M) (st : ModelState M) :
    ((setObservers T b p st).steps, (setObservers T b p st).counter, (setObservers T b p st).trueAverage) =
      (st.steps, st.counter, st.trueAverage) :=
  setObservers_same (fun st => (st.steps, st.counter, st.trueAverage)) (fun _ _ _ => rfl) T b p st

/-! ### Which modules the loops reach -/

/-- `m` lies in a proxy of kind `k` of the model. -/
def InsideProxy (T : ModelTree M) (model : M) (k : ModuleKind) (m : M) : Prop := ∃ p ∈ T.sub model, T.kind p = k ∧ m ∈ T.sub p

/-- The proxies of one kind in a model are switched. -/
structure Switched (T : ModelTree M) (model : M) (ks : List ModuleKind) (isTraining : Bool) (ds : List ModuleKind) (d : Bool)
    (os : List ModuleKind) (o : Bool) (st st' : ModelState M) : Prop where
  training_in : ∀ m k, k ∈ ks → InsideProxy T model k m → st'.training m = isTraining
  training_out : ∀ m, (∀ k ∈ ks, ¬ InsideProxy T model k m) → st'.training m = st.training m
  disable_in : ∀ m ∈ T.sub model, T.kind m ∈ ds → st'.disableQuant m = d
  disable_out : ∀ m, ¬ (m ∈ T.sub model ∧ T.kind m ∈ ds) → st'.disableQuant m = st.disableQuant m
  observer_in : ∀ m k, k ∈ os → InsideProxy T model k m → T.hasObserver m = true → st'.observerOnly m = o
  observer_out : ∀ m, ¬ (T.hasObserver m = true ∧ ∃ k ∈ os, InsideProxy T model k m) → st'.observerOnly m = st.observerOnly m
  return_same : st'.returnQuantTensor = st.returnQuantTensor
  stats_same : (st'.steps, st'.counter, st'.trueAverage) = (st.steps, st.counter, st.trueAverage)

theorem switched_of_body (T : ModelTree M) (model : M) (ks : List ModuleKind) (isTraining : Bool) (ds : List ModuleKind) (d : Bool)
    (os : List ModuleKind) (o : Bool) (body : M → ModelState M → ModelState M)
    (ht : ∀ p st m, (T.kind p ∈ ks → m ∈ T.sub p → (body p st).training m = isTraining) ∧
      (¬ (T.kind p ∈ ks ∧ m ∈ T.sub p) → (body p st).training m = st.training m))
    (hd : ∀ p st, (T.kind p ∈ ds → (body p st).disableQuant = Function.update st.disableQuant p d) ∧
      (T.kind p ∉ ds → (body p st).disableQuant = st.disableQuant))
    (ho : ∀ p st m, (T.kind p ∈ os → m ∈ T.sub p → T.hasObserver m = true → (body p st).observerOnly m = o) ∧
      (¬ (T.kind p ∈ os ∧ m ∈ T.sub p ∧ T.hasObserver m = true) → (body p st).observerOnly m = st.observerOnly m))
    (hr : ∀ p st, (body p st).returnQuantTensor = st.returnQuantTensor)
    (hs : ∀ p st, ((body p st).steps, (body p st).counter, (body p st).trueAverage) = (st.steps, st.counter, st.trueAverage))
    (st : ModelState M) : Switched T model ks isTraining ds d os o st (forEach (T.sub model) body st) := by
  have t := fun m => forEach_set (fun st => st.training) (fun p m => T.kind p ∈ ks ∧ m ∈ T.sub p) isTraining body m
    (fun p st h => (ht p st m).1 h.1 h.2) (fun p st h => (ht p st m).2 h) (T.sub model) st
  have dd := fun m => forEach_set (fun st => st.disableQuant) (fun p m => T.kind p ∈ ds ∧ p = m) d body m
    (by rintro p st ⟨h, rfl⟩; simp [(hd p st).1 h])
    (by
      intro p st h
      by_cases hk : T.kind p ∈ ds
      · have : m ≠ p := by rintro rfl; exact h ⟨hk, rfl⟩
        simp [(hd p st).1 hk, Function.update_of_ne this]
      · simp [(hd p st).2 hk]) (T.sub model) st
  have oo := fun m => forEach_set (fun st => st.observerOnly) (fun p m => T.kind p ∈ os ∧ m ∈ T.sub p ∧ T.hasObserver m = true) o body m
    (fun p st h => (ho p st m).1 h.1 h.2.1 h.2.2) (fun p st h => (ho p st m).2 h) (T.sub model) st
  refine ⟨?_, ?_, ?_, ?_, ?_, ?_, ?_, ?_⟩
  · rintro m k hk ⟨p, hp, rfl, hm⟩
    exact (t m).1 ⟨p, hp, hk, hm⟩
  · intro m h
    exact (t m).2 fun ⟨p, hp, hk, hm⟩ => h _ hk ⟨p, hp, rfl, hm⟩
  · intro m hm hk
    exact (dd m).1 ⟨m, hm, hk, rfl⟩
  · intro m h
    exact (dd m).2 fun ⟨p, hp, hk, hpm⟩ => h ⟨hpm ▸ hp, hpm ▸ hk⟩
  · rintro m k hk ⟨p, hp, rfl, hm⟩ hobs
    exact (oo m).1 ⟨p, hp, hk, hm, hobs⟩
  · intro m h
    exact (oo m).2 fun ⟨p, hp, hk, hm, hobs⟩ => h ⟨hobs, _, hk, p, hp, rfl, hm⟩
  · exact forEach_same (·.returnQuantTensor) body hr _ _
  · exact forEach_same (fun st => (st.steps, st.counter, st.trueAverage)) body hs _ _

theorem disableAct_observe (T : ModelTree M) (model : M) (b : Bool) (st : ModelState M) :
    Switched T model [.act, .acc] b [.acc] true [.act] true st (disableActQuantization T true model b st) := by
  refine switched_of_body T model _ _ _ _ _ _ _ ?_ ?_ ?_ ?_ ?_ st
  · intro p st m
    cases hk : T.kind p <;> simp +contextual [train, setDisable]
  · intro p st
    cases hk : T.kind p <;> simp [train, setDisable]
  · intro p st m
    cases hk : T.kind p <;> simp [train, setDisable]
    exact ⟨(setObservers_observer T true p _ m).1, fun h => (setObservers_observer T true p _ m).2 (by simpa using h)⟩
  · intro p st
    cases hk : T.kind p <;> simp [train, setDisable]
  · intro p st
    cases hk : T.kind p <;> simp [train, setDisable]

theorem disableAct_off (T : ModelTree M) (model : M) (b : Bool) (st : ModelState M) :
    Switched T model [.act, .acc] b [.act, .acc] true [] true st (disableActQuantization T false model b st) := by
  refine switched_of_body T model _ _ _ _ _ _ _ ?_ ?_ ?_ ?_ ?_ st
  · intro p st m
    cases hk : T.kind p <;> simp +contextual [train, setDisable]
  · intro p st
    cases hk : T.kind p <;> simp [train, setDisable]
  · intro p st m
    cases hk : T.kind p <;> simp [train, setDisable]
  · intro p st
    cases hk : T.kind p <;> simp [train, setDisable]
  · intro p st
    cases hk : T.kind p <;> simp [train, setDisable]

theorem enableAct_switched (T : ModelTree M) (model : M) (b : Bool) (st : ModelState M) :
    Switched T model [.act, .acc] b [.act, .acc] false [.act] false st (enableActQuantization T model b st) := by
  refine switched_of_body T model _ _ _ _ _ _ _ ?_ ?_ ?_ ?_ ?_ st
  · intro p st m
    cases hk : T.kind p <;> simp +contextual [train, setDisable]
  · intro p st
    cases hk : T.kind p <;> simp [train, setDisable]
  · intro p st m
    cases hk : T.kind p <;> simp [train, setDisable]
    exact ⟨(setObservers_observer T false p _ m).1, fun h => (setObservers_observer T false p _ m).2 (by simpa using h)⟩
  · intro p st
    cases hk : T.kind p <;> simp [train, setDisable]
  · intro p st
    cases hk : T.kind p <;> simp [train, setDisable]

theorem disableParam_switched (T : ModelTree M) (model : M) (b : Bool) (st : ModelState M) :
    Switched T model [.weight, .bias] b [.weight, .bias] true [] true st (disableParamQuantization T model b st) := by
  refine switched_of_body T model _ _ _ _ _ _ _ ?_ ?_ ?_ ?_ ?_ st
  · intro p st m
    cases hk : T.kind p <;> simp +contextual [train, setDisable]
  · intro p st
    cases hk : T.kind p <;> simp [train, setDisable]
  · intro p st m
    cases hk : T.kind p <;> simp [train, setDisable]
  · intro p st
    cases hk : T.kind p <;> simp [train, setDisable]
  · intro p st
    cases hk : T.kind p <;> simp [train, setDisable]

theorem enableParam_switched (T : ModelTree M) (model : M) (b : Bool) (st : ModelState M) :
    Switched T model [.weight, .bias] b [.weight, .bias] false [] true st (enableParamQuantization T model b st) := by
  refine switched_of_body T model _ _ _ _ _ _ _ ?_ ?_ ?_ ?_ ?_ st
  · intro p st m
    cases hk : T.kind p <;> simp +contextual [train, setDisable]
  · intro p st
    cases hk : T.kind p <;> simp [train, setDisable]
  · intro p st m
    cases hk : T.kind p <;> simp [train, setDisable]
  · intro p st
    cases hk : T.kind p <;> simp [train, setDisable]
  · intro p st
    cases hk : T.kind p <;> simp [train, setDisable]

theorem disableBias_switched (T : ModelTree M) (model : M) (b : Bool) (st : ModelState M) :
    Switched T model [.bias] b [.bias] true [] true st (disableBiasQuantization T model b st) := by
  refine switched_of_body T model _ _ _ _ _ _ _ ?_ ?_ ?_ ?_ ?_ st
  · intro p st m
    cases hk : T.kind p <;> simp +contextual [train, setDisable]
  · intro p st
    cases hk : T.kind p <;> simp [train, setDisable]
  · intro p st m
    cases hk : T.kind p <;> simp [train, setDisable]
  · intro p st
    cases hk : T.kind p <;> simp [train, setDisable]
  · intro p st
    cases hk : T.kind p <;> simp [train, setDisable]

theorem enableBias_switched (T : ModelTree M) (model : M) (b : Bool) (st : ModelState M) :
    Switched T model [.bias] b [.bias] false [] true st (enableBiasQuantization T model b st) := by
  refine switched_of_body T model _ _ _ _ _ _ _ ?_ ?_ ?_ ?_ ?_ st
  · intro p st m
    cases hk : T.kind p <;> simp +contextual [train, setDisable]
  · intro p st
    cases hk : T.kind p <;> simp [train, setDisable]
  · intro p st m
    cases hk : T.kind p <;> simp [train, setDisable]
  · intro p st
    cases hk : T.kind p <;> simp [train, setDisable]
  · intro p st
    cases hk : T.kind p <;> simp [train, setDisable]

/-! ### Return flags -/

theorem disableReturn_apply (T : ModelTree M) (model : M) (st : ModelState M) (m : M) :
    (m ∈ T.sub model → T.hasReturn m = true → (disableReturnQuantTensor T model st).2.returnQuantTensor m = false) ∧
      (¬ (m ∈ T.sub model ∧ T.hasReturn m = true) →
        (disableReturnQuantTensor T model st).2.returnQuantTensor m = st.returnQuantTensor m) := by
  have h := forEach_set (fun st => st.returnQuantTensor) (fun q m => q = m ∧ T.hasReturn m = true) false
    (fun module st => if T.hasReturn module then st.setReturn module false else st) m
    (by rintro q st ⟨rfl, h⟩; simp [h, setReturn])
    (by
      intro q st hq
      by_cases ho : T.hasReturn q = true
      · have hne : m ≠ q := by rintro rfl; exact hq ⟨rfl, ho⟩
        simp [ho, setReturn, Function.update_of_ne hne]
      · simp [ho]) (T.sub model) st
  exact ⟨fun h1 h2 => h.1 ⟨m, h1, rfl, h2⟩, fun h1 => h.2 fun ⟨q, hq, hqm, ho⟩ => h1 ⟨hqm ▸ hq, ho⟩⟩

theorem disableReturn_same (T : ModelTree M) (model : M) (st : ModelState M) :
    (disableReturnQuantTensor T model st).2.training = st.training ∧
      (disableReturnQuantTensor T model st).2.disableQuant = st.disableQuant ∧
      (disableReturnQuantTensor T model st).2.observerOnly = st.observerOnly ∧
      (disableReturnQuantTensor T model st).2.counter = st.counter := by
  have h := forEach_same (fun st : ModelState M => (st.training, st.disableQuant, st.observerOnly, st.counter))
    (fun module st => if T.hasReturn module then st.setReturn module false else st)
    (fun p st => by split <;> rfl) (T.sub model) st
  simpa [disableReturnQuantTensor] using h

theorem restoreReturn_apply (T : ModelTree M) (model : M) (prev : M → Option Bool) (st : ModelState M) (m : M) :
    (restoreReturnQuantTensor T model prev st).returnQuantTensor m =
      if m ∈ T.sub model ∧ T.hasReturn m = true then (prev m).getD (st.returnQuantTensor m) else st.returnQuantTensor m := by
  have h := fun b (hb : prev m = some b) => forEach_set (fun st => st.returnQuantTensor) (fun q m => q = m ∧ T.hasReturn m = true) b
    (fun module st => if T.hasReturn module then
        match prev module with
        | some b => st.setReturn module b
        | none => st
      else st) m
    (by rintro q st ⟨rfl, h⟩; simp [h, setReturn, hb])
    (by
      intro q st hq
      by_cases ho : T.hasReturn q = true
      · have hne : m ≠ q := by rintro rfl; exact hq ⟨rfl, ho⟩
        cases prev q <;> simp [ho, setReturn, Function.update_of_ne hne]
      · simp [ho]) (T.sub model) st
  cases hb : prev m with
  | some b =>
    split_ifs with hm
    · exact (h b hb).1 ⟨m, hm.1, rfl, hm.2⟩
    · exact (h b hb).2 fun ⟨q, hq, hqm, ho⟩ => hm ⟨hqm ▸ hq, ho⟩
  | none =>
    have hn := forEach_same (fun st => st.returnQuantTensor m)
      (fun module st => if T.hasReturn module then
        match prev module with
        | some b => st.setReturn module b
        | none => st
      else st) (by
        intro q st
        by_cases ho : T.hasReturn q = true
        · by_cases hq : m = q
          · subst hq; simp [ho, hb]
          · cases prev q <;> simp [ho, setReturn, Function.update_of_ne hq]
        · simp [ho]) (T.sub model) st
    simp only [Option.getD_none, ite_self]
    exact hn

theorem restoreReturn_same (T : ModelTree M) (model : M) (prev : M → Option Bool) (st : ModelState M) :
    (restoreReturnQuantTensor T model prev st).training = st.training ∧
      (restoreReturnQuantTensor T model prev st).disableQuant = st.disableQuant ∧
      (restoreReturnQuantTensor T model prev st).observerOnly = st.observerOnly ∧
      (restoreReturnQuantTensor T model prev st).counter = st.counter ∧
      (restoreReturnQuantTensor T model prev st).steps = st.steps ∧
      (restoreReturnQuantTensor T model prev st).trueAverage = st.trueAverage := by
  obtain ⟨get, hget⟩ : ∃ get : ModelState M → _, get = fun st : ModelState M =>
    (st.training, st.disableQuant, st.observerOnly, st.counter, st.steps, st.trueAverage) := ⟨_, rfl⟩
  have h : get (restoreReturnQuantTensor T model prev st) = get st := by
    refine forEach_same get _ (fun p st => ?_) _ _
    subst hget
    split
    · cases prev p <;> rfl
    · rfl
  subst hget
  simpa using h

/-! ### Statistics -/

theorem finalize_counter (T : ModelTree M) (model : M) (st : ModelState M) (m : M) :
    (finalizeCollectStats T model st).counter m =
      if m ∈ T.sub model ∧ T.hasSteps m = true ∧ T.hasCounter m = true then max (st.steps m) (st.counter m) else st.counter m := by
  unfold finalizeCollectStats
  induction T.sub model generalizing st with
  | nil => simp [forEach]
  | cons p ms ih =>
    rw [forEach, List.foldl_cons, ← forEach, ih]
    by_cases hs : (T.hasSteps p && T.hasCounter p) = true
    · rw [if_pos hs]
      simp only [Bool.and_eq_true] at hs
      by_cases hm : m = p
      · subst hm
        simp [hs.1, hs.2]
        intro _
        omega
      · simp [hm]
    · rw [if_neg hs]
      simp only [Bool.and_eq_true] at hs
      by_cases hm : m = p
      · subst hm
        simp [hs]
      · simp [hm]

theorem finalize_same (T : ModelTree M) (model : M) (st : ModelState M) :
    (finalizeCollectStats T model st).training = st.training ∧ (finalizeCollectStats T model st).disableQuant = st.disableQuant ∧
      (finalizeCollectStats T model st).observerOnly = st.observerOnly ∧
      (finalizeCollectStats T model st).returnQuantTensor = st.returnQuantTensor ∧ (finalizeCollectStats T model st).steps = st.steps ∧
      (finalizeCollectStats T model st).trueAverage = st.trueAverage := by
  have h := forEach_same
    (fun st : ModelState M => (st.training, st.disableQuant, st.observerOnly, st.returnQuantTensor, st.steps, st.trueAverage))
    (fun module st => if T.hasSteps module && T.hasCounter module then
      { st with counter := Function.update st.counter module (max (st.steps module) (st.counter module)) }
    else st)
    (fun p st => by split <;> rfl) (T.sub model) st
  simpa [finalizeCollectStats] using h

theorem extend_same (T : ModelTree M) (model : M) (n : ℕ) (st : ModelState M) :
    (extendCollectStats T model n st).training = st.training ∧ (extendCollectStats T model n st).disableQuant = st.disableQuant ∧
      (extendCollectStats T model n st).observerOnly = st.observerOnly ∧
      (extendCollectStats T model n st).returnQuantTensor = st.returnQuantTensor ∧
      (extendCollectStats T model n st).counter = st.counter := by
  have h := forEach_same (fun st : ModelState M => (st.training, st.disableQuant, st.observerOnly, st.returnQuantTensor, st.counter))
    (fun module st =>
      let st := if T.hasSteps module then { st with steps := Function.update st.steps module n } else st
      if T.hasSteps module && T.hasMomentum module then { st with trueAverage := Function.update st.trueAverage module true } else st)
    (fun p st => by dsimp only; split <;> split <;> rfl) (T.sub model) st
  simpa [extendCollectStats] using h

theorem extend_steps (T : ModelTree M) (model : M) (n : ℕ) (st : ModelState M) (m : M) (hm : m ∈ T.sub model)
    (hs : T.hasSteps m = true) : (extendCollectStats T model n st).steps m = n := by
  refine (forEach_set (fun st => st.steps) (fun q m => q = m ∧ T.hasSteps m = true) n _ m ?_ ?_ (T.sub model) st).1 ⟨m, hm, rfl, hs⟩
  · rintro q st ⟨rfl, h⟩
    dsimp only
    rw [if_pos h]
    split <;> simp
  · intro q st hq
    dsimp only
    by_cases ho : T.hasSteps q = true
    · have hne : m ≠ q := by rintro rfl; exact hq ⟨rfl, ho⟩
      rw [if_pos ho]
      split <;> simp [Function.update_of_ne hne]
    · rw [if_neg ho]
      split <;> rfl

theorem extend_average (T : ModelTree M) (model : M) (n : ℕ) (st : ModelState M) (m : M) (hm : m ∈ T.sub model)
    (hs : T.hasSteps m = true) (hmo : T.hasMomentum m = true) : (extendCollectStats T model n st).trueAverage m = true := by
  refine (forEach_set (fun st => st.trueAverage) (fun q m => q = m ∧ T.hasSteps m = true ∧ T.hasMomentum m = true) true _ m ?_ ?_
    (T.sub model) st).1 ⟨m, hm, rfl, hs, hmo⟩
  · rintro q st ⟨rfl, h, h'⟩
    simp [h, h']
  · intro q st hq
    dsimp only
    by_cases ho : (T.hasSteps q && T.hasMomentum q) = true
    · have hne : m ≠ q := by rintro rfl; exact hq ⟨rfl, by simpa using ho⟩
      rw [if_pos ho]
      split <;> simp [Function.update_of_ne hne]
    · rw [if_neg ho]
      split <;> rfl

end Brevitas
