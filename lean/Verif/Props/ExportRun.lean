import Verif.Lemmas.ExportRun

/-!
# C99: what an export does to the model it exports

A user exports a model, in TorchScript or ONNX, and goes on using it. The theorems say what a successful export leaves behind (nothing but
cached values), which state is traced, and what an export that raised leaves behind.
-/

namespace Brevitas.ExportRun

open Prog

variable {H C T : Type*}

/-- The manager of an export. -/
def Call.manager : Call H C T → Manager H
  | .torch M _ => M
  | .onnx M _ _ => M

/-- What is left open in an export. -/
def Call.world : Call H C T → World H C T
  | .torch _ w => w
  | .onnx _ w _ => w

/-- What is made of the traced model. -/
def Call.result : Call H C T → T → Option T
  | .torch _ _, t => some t
  | .onnx _ w _, t => w.post t

/-- A module belongs to the model. -/
def Net.Mem (n : Net) (i : ℕ) : Prop := i ∈ n.tree.trainOrder

/-- The export manager deals with a module: it has one of the kinds of the manager, and the attributes of an exportable module. -/
def Covers (n : Net) (M : Manager H) (i : ℕ) : Prop := (n.info i).kind ∈ M.kinds ∧ (n.info i).exportable = true

/-- A model as a user has it: no export is running or has been interrupted, and all modules are in the same mode, training or evaluation. -/
structure Idle (n : Net) (s : State H C) : Prop where
  context : s.ongoing = none
  exportMode : ∀ i, n.Mem i → (s.mods i).exportMode = false
  handler : ∀ i, n.Mem i → (s.mods i).handler = none
  backup : ∀ i, n.Mem i → ∀ f, (s.mods i).backup f = none
  uniform : ∀ i, n.Mem i → (s.mods i).training = (s.mods n.tree.root).training

/-! ### A small model for the examples -/

/-- A layer with an activation quantiser, which occurs twice, and a module that is not quantised. -/
def Sample.net : Net where
  tree := .node 0 [.node 1 [], .node 2 [.node 1 []]]
  info i := if i = 1 then ⟨.proxy, true, true⟩ else ⟨.other, false, false⟩
  params := [0, 1]

/-- An exporter with a handler for the quantiser. -/
def Sample.manager : Manager Unit := ⟨"torch", [.proxy], fun i => if i = 1 then some () else none⟩

/-- An exporter without. -/
def Sample.noHandler : Manager Unit := ⟨"torch", [.proxy], fun _ => none⟩

/-- Nothing raises. -/
def Sample.world : World Unit Unit Unit := ⟨false, fun _ => ((), true), fun _ _ => ((), true), fun _ => some (), some⟩

/-- Tracing raises. -/
def Sample.badTrace : World Unit Unit Unit := { Sample.world with trace := fun _ => none }

/-- The clean-up raises. -/
def Sample.badPost : World Unit Unit Unit := { Sample.world with post := fun _ => none }

/-- The forward pass raises. -/
def Sample.badForward : World Unit Unit Unit := { Sample.world with forward := fun _ => ((), false) }

/-- A forward pass on input `x` caches what it has seen, if the quantiser is told to cache activations; the exporter reads the cache. -/
def Sample.cachesInput (x : ℕ) : World Unit (Option ℕ) (Option ℕ) :=
  ⟨false, fun s => (if (s.mods 1).flag .act == some true then some x else s.caches, true), fun s _ => (s.caches, s.caches.isSome),
    fun s => some s.caches, some⟩

/-- A state of this model. -/
def Sample.state {C : Type*} (c : C) (training : ℕ → Bool) : State Unit C where
  mods i := ⟨training i, false, none,
    fun f => if i = 1 then match f with | .io => some true | .act => some false | .bias => none else none, fun _ => none⟩
  grads _ := true
  ongoing := none
  caches := c

/-! ### What a successful export leaves behind -/

theorem idle_exported {n : Net} {s s' : State H C} (hs : Idle n s) (M : Manager H) (hg : s'.grads = s.grads) (ho : s'.ongoing = none)
    (hm : ∀ j, s'.mods j =
      if j ∈ n.tree.trainOrder then exported n M (s.mods n.tree.root).training j (s.mods j) else s.mods j) :
    s' = { s with caches := s'.caches } := by
  have : s'.mods = s.mods := by
    funext j
    rw [hm j]
    split
    · rename_i hj
      obtain ⟨h1, h2, h3, h4, h5⟩ := exported_fields n M (s.mods n.tree.root).training j (s.mods j)
      ext1
      · rw [h3, hs.uniform j hj]
      · rw [h2, hs.exportMode j hj]; simp
      · rw [h1, hs.handler j hj]; simp
      · rw [h4]; funext f; simp [eff, hs.backup j hj f]
      · rw [h5]; funext f; exact (hs.backup j hj f).symm
    · rfl
  rcases s' with ⟨m', g', o', c'⟩
  simp only at this hg ho ⊢
  rw [this, hg, ho, ← hs.context]

/-- C99. After a successful export, in either format, the model is what it was before, but for values cached by its modules: modes, caching
flags, export handlers, `requires_grad` and the global export flag. -/
theorem C99_restores (n : Net) (c : Call H C T) {s s' : State H C} {t : T} (hs : Idle n s) (h : c.run n s = (s', .ok t)) :
    s' = { s with caches := s'.caches } := by
  cases c with
  | torch M w =>
    obtain ⟨_, ho, hg, hm, _⟩ := torch_ok h
    exact idle_exported hs M hg ho hm
  | onnx M w a =>
    simp only [Call.run, exportOnnx_eq] at h
    split at h
    · simp [raise] at h
    · obtain ⟨_, s1, hb, rfl⟩ := withContext_ok h
      obtain ⟨s2, r, hb, hp⟩ := andThen_ok.mp hb
      obtain ⟨rfl, _⟩ := runPost_ok hp
      obtain ⟨_, hg, hm, _⟩ := onnxBody_ok hb
      exact idle_exported hs M hg rfl hm

example : Idle Sample.net (Sample.state () fun _ => true) :=
  ⟨rfl, fun _ _ => rfl, fun _ _ => rfl, fun _ _ _ => rfl, fun _ _ => rfl⟩

example : ((Call.torch Sample.manager Sample.world).run Sample.net (Sample.state () fun _ => true)).2 = .ok () := by rfl
example : ((Call.onnx Sample.manager Sample.world true).run Sample.net (Sample.state () fun _ => true)).2 = .ok () := by rfl

/-- C99. An ONNX export that raises while cleaning up the exported model has already put the model back. -/
theorem C99_cleanup_failure (n : Net) (M : Manager H) (w : World H C T) (a : Bool) {s s' : State H C} (hs : Idle n s)
    (h : exportOnnx n M w a s = (s', .error .post)) : s' = { s with caches := s'.caches } := by
  rw [exportOnnx_eq] at h
  split at h
  · simp [raise] at h
  · obtain ⟨hc, s1, hb, rfl⟩ := withContext_error h (by simp)
    rcases andThen_error.mp hb with hb | ⟨s2, r, hb, hp⟩
    · exact absurd (onnxBody_error (Or.inr rfl) hb).1 (by simp)
    · have h2 : s1 = s2 := by
        unfold runPost at hp
        split at hp
        · simp [ret] at hp
        · simp only [raise, Prod.mk.injEq] at hp; exact hp.1.symm
      subst h2
      obtain ⟨_, hg, hm, _⟩ := onnxBody_ok hb
      exact idle_exported hs M hg rfl hm

example : (exportOnnx Sample.net Sample.manager Sample.badPost true (Sample.state () fun _ => true)).2 = .error .post := by rfl

/-- C99. Without the proviso that all modules are in the same mode: after a successful export every module of the model is in the mode
of the root. -/
theorem C99_mode_after_export (n : Net) (c : Call H C T) {s s' : State H C} {t : T} (h : c.run n s = (s', .ok t)) (i : ℕ) (hi : n.Mem i) :
    (s'.mods i).training = (s.mods n.tree.root).training := by
  have key : ∀ M : Manager H, s'.mods i = (if i ∈ n.tree.trainOrder then exported n M (s.mods n.tree.root).training i (s.mods i) else s.mods i) →
      (s'.mods i).training = (s.mods n.tree.root).training := by
    intro M hm
    rw [hm, if_pos (show i ∈ n.tree.trainOrder from hi), (exported_fields n M _ i _).2.2.1]
  cases c with
  | torch M w => exact key M ((torch_ok h).2.2.2.1 i)
  | onnx M w a =>
    simp only [Call.run, exportOnnx_eq] at h
    split at h
    · simp [raise] at h
    · obtain ⟨_, s1, hb, rfl⟩ := withContext_ok h
      obtain ⟨s2, r, hb, hp⟩ := andThen_ok.mp hb
      obtain ⟨rfl, _⟩ := runPost_ok hp
      exact key M ((onnxBody_ok hb).2.2.1 i)

/-- C99, negation: a module that had been put in evaluation mode inside a model in training mode (a frozen batch normalisation, say) is in
training mode after an export. -/
theorem C99_frozen_module_thawed :
    ∃ s : State Unit Unit, (s.mods 2).training = false ∧ Sample.net.Mem 2 ∧
      ((Call.torch Sample.manager Sample.world).run Sample.net s).2 = .ok () ∧
      ((((Call.torch Sample.manager Sample.world).run Sample.net s).1).mods 2).training = true :=
  ⟨Sample.state () fun i => i != 2, rfl, by unfold Net.Mem; decide, rfl, rfl⟩

/-! ### What is traced -/

/-- C99. The model that is traced is in evaluation mode. Every quantiser that needs a handler has the handler of this exporter and is in export
mode, and so is every module the exporter has a handler for; every other module is not in export mode. -/
theorem C99_traced_modules (n : Net) (c : Call H C T) {s s' : State H C} {t : T} (hs : Idle n s) (h : c.run n s = (s', .ok t)) :
    ∃ seen r, c.world.trace seen = some r ∧ c.result r = some t ∧ ∀ i, n.Mem i →
      (seen.mods i).training = false ∧
      (Covers n c.manager i → (n.info i).required = true → (c.manager.handlerFor i).isSome) ∧
      (Covers n c.manager i → (seen.mods i).handler = c.manager.handlerFor i ∧
        (seen.mods i).exportMode = (c.manager.handlerFor i).isSome) ∧
      (¬ Covers n c.manager i → (seen.mods i).handler = none ∧ (seen.mods i).exportMode = false) := by
  have key : ∀ (M : Manager H) (i : ℕ), n.Mem i →
      (¬ (Covers n M i ∧ (n.info i).required = true ∧ M.handlerFor i = none)) →
      (traced n M i (s.mods i)).training = false ∧
      (Covers n M i → (n.info i).required = true → (M.handlerFor i).isSome) ∧
      (Covers n M i → (traced n M i (s.mods i)).handler = M.handlerFor i ∧
        (traced n M i (s.mods i)).exportMode = (M.handlerFor i).isSome) ∧
      (¬ Covers n M i → (traced n M i (s.mods i)).handler = none ∧ (traced n M i (s.mods i)).exportMode = false) := by
    intro M i hi hu
    obtain ⟨h1, h2, h3, _, _⟩ := traced_fields n M i (s.mods i)
    rw [hs.handler i hi] at h1 h2
    rw [hs.exportMode i hi] at h2
    refine ⟨h3, fun hc hr => ?_, fun hc => ⟨?_, ?_⟩, fun hc => ⟨?_, ?_⟩⟩
    · rcases hf : M.handlerFor i with _ | x
      · exact absurd ⟨hc, hr, hf⟩ hu
      · rfl
    · rw [h1, if_pos (show covered n M i from hc)]; rfl
    · rw [h2, if_pos (show covered n M i from hc)]
      rcases M.handlerFor i <;> rfl
    · rw [h1, if_neg (show ¬ covered n M i from hc)]
    · rw [h2, if_neg (show ¬ covered n M i from hc)]
  cases c with
  | torch M w =>
    have hu : ∀ i, n.Mem i → ¬ (Covers n M i ∧ (n.info i).required = true ∧ M.handlerFor i = none) := by
      rintro i hi ⟨hc, hr, hn⟩
      obtain ⟨_, sf, hb, _⟩ := withContext_ok h
      unfold jitInferenceTrace at hb
      simp only at hb
      obtain ⟨s1, _, h1, hb⟩ := andThen_ok.mp hb
      obtain ⟨s2, _, h2, hb⟩ := andThen_ok.mp hb
      refine handlers_unsupported hi hc hr hn ?_ h2
      obtain ⟨a, _, _⟩ := maps_train n false _ _ h1
      rw [a i, if_pos (show i ∈ n.tree.trainOrder from hi)]
      exact hs.handler i hi
    obtain ⟨_, _, _, _, seen, ht, hm, _, _⟩ := torch_ok h
    refine ⟨seen, t, ht, rfl, fun i hi => ?_⟩
    have hm' := hm i
    rw [if_pos (show i ∈ n.tree.trainOrder from hi)] at hm'
    rw [hm']
    exact key M i hi (hu i hi)
  | onnx M w a =>
    simp only [Call.run, exportOnnx_eq] at h
    split at h
    · simp [raise] at h
    · obtain ⟨_, s1, hb, rfl⟩ := withContext_ok h
      obtain ⟨s2, r, hb, hp⟩ := andThen_ok.mp hb
      obtain ⟨rfl, hpost⟩ := runPost_ok hp
      have hu : ∀ i, n.Mem i → ¬ (Covers n M i ∧ (n.info i).required = true ∧ M.handlerFor i = none) := by
        rintro i hi ⟨hc, hr, hn⟩
        unfold onnxBody at hb
        obtain ⟨s1, _, h1, hb⟩ := andThen_ok.mp hb
        obtain ⟨s2, _, h2, hb⟩ := andThen_ok.mp hb
        refine handlers_unsupported hi hc hr hn ?_ h2
        obtain ⟨a, _, _⟩ := maps_train n false _ _ h1
        rw [a i, if_pos (show i ∈ n.tree.trainOrder from hi)]
        exact hs.handler i hi
      obtain ⟨_, _, _, seen, ht, hm, _, _⟩ := onnxBody_ok hb
      refine ⟨seen, r, ht, hpost, fun i hi => ?_⟩
      have hm' := hm i
      rw [if_pos (show i ∈ n.tree.trainOrder from hi)] at hm'
      obtain ⟨q1, q2, q3⟩ := override_fields .act false (traced n M i (s.mods i))
      rw [hm', q1, q2, q3]
      exact key M i hi (hu i hi)

/-- C99. What a TorchScript export traces has the caching flags the user has chosen; `requires_grad` is off for all parameters of the model. -/
theorem C99_traced_flags_torch (n : Net) (M : Manager H) (w : World H C T) {s s' : State H C} {t : T} (hs : Idle n s)
    (h : exportTorch n M w s = (s', .ok t)) :
    ∃ seen, w.trace seen = some t ∧ (∀ i, n.Mem i → (seen.mods i).flag = (s.mods i).flag) ∧
      ∀ p, seen.grads p = if p ∈ n.params then false else s.grads p := by
  obtain ⟨_, _, _, _, seen, ht, hm, hg, _⟩ := torch_ok h
  refine ⟨seen, ht, fun i hi => ?_, hg⟩
  rw [hm i, if_pos (show i ∈ n.tree.trainOrder from hi), (traced_fields n M i _).2.2.2.1]
  funext f
  simp [eff, hs.backup i hi f]

/-- C99. What an ONNX export traces has the caching flags the user has chosen, but that activations are not cached; `requires_grad` is as it
was. -/
theorem C99_traced_flags_onnx (n : Net) (M : Manager H) (w : World H C T) (a : Bool) {s s' : State H C} {t : T} (hs : Idle n s)
    (h : exportOnnx n M w a s = (s', .ok t)) :
    ∃ seen r, w.trace seen = some r ∧ w.post r = some t ∧
      (∀ i, n.Mem i → (seen.mods i).flag .io = (s.mods i).flag .io ∧ (seen.mods i).flag .bias = (s.mods i).flag .bias ∧
        (seen.mods i).flag .act = ((s.mods i).flag .act).map fun _ => false) ∧
      seen.grads = s.grads := by
  rw [exportOnnx_eq] at h
  split at h
  · simp [raise] at h
  · obtain ⟨_, s1, hb, rfl⟩ := withContext_ok h
    obtain ⟨s2, r, hb, hp⟩ := andThen_ok.mp hb
    obtain ⟨rfl, hpost⟩ := runPost_ok hp
    obtain ⟨_, _, _, seen, ht, hm, hg, _⟩ := onnxBody_ok hb
    refine ⟨seen, r, ht, hpost, fun i hi => ?_, hg⟩
    obtain ⟨_, _, _, h4, h5⟩ := traced_fields n M i (s.mods i)
    have he : eff (s.mods i) = (s.mods i).flag := by funext f; simp [eff, hs.backup i hi f]
    rw [hm i, if_pos (show i ∈ n.tree.trainOrder from hi)]
    simp only
    unfold overrideFlag
    rw [h4, h5, he]
    rcases hf : (s.mods i).flag .act with _ | v
    · simp [h4, he, hf]
    · simp

/-- C99. A model with an enabled quantiser that the exporter does not know is not exported: the export raises. -/
theorem C99_unsupported_raises (n : Net) (c : Call H C T) (s : State H C) (i : ℕ) (hi : n.Mem i) (hc : Covers n c.manager i)
    (hr : (n.info i).required = true) (hn : c.manager.handlerFor i = none) (hh : (s.mods i).handler = none) :
    ∃ e, (c.run n s).2 = .error e := by
  rcases hcr : c.run n s with ⟨s', (e | t)⟩
  · exact ⟨e, rfl⟩
  · exfalso
    cases c with
    | torch M w =>
      obtain ⟨_, sf, hb, _⟩ := withContext_ok hcr
      unfold jitInferenceTrace at hb
      simp only at hb
      obtain ⟨s1, _, h1, hb⟩ := andThen_ok.mp hb
      obtain ⟨s2, _, h2, hb⟩ := andThen_ok.mp hb
      refine handlers_unsupported hi hc hr hn ?_ h2
      obtain ⟨a, _, _⟩ := maps_train n false _ _ h1
      rw [a i, if_pos (show i ∈ n.tree.trainOrder from hi)]
      exact hh
    | onnx M w a =>
      simp only [Call.run, exportOnnx_eq] at hcr
      split at hcr
      · simp [raise] at hcr
      · obtain ⟨_, s1, hb, _⟩ := withContext_ok hcr
        obtain ⟨s2, r, hb, hp⟩ := andThen_ok.mp hb
        unfold onnxBody at hb
        obtain ⟨s1, _, h1, hb⟩ := andThen_ok.mp hb
        obtain ⟨s2, _, h2, hb⟩ := andThen_ok.mp hb
        refine handlers_unsupported hi hc hr hn ?_ h2
        obtain ⟨a, _, _⟩ := maps_train n false _ _ h1
        rw [a i, if_pos (show i ∈ n.tree.trainOrder from hi)]
        exact hh

example : Sample.net.Mem 1 ∧ Covers Sample.net Sample.noHandler 1 ∧ (Sample.net.info 1).required = true ∧
    Sample.noHandler.handlerFor 1 = none := ⟨by unfold Net.Mem; decide, by unfold Covers; decide, rfl, rfl⟩

/-! ### Exports that raise -/

/-- C99. Whatever happens during an export: the global flag says afterwards that no export is running, modules outside the model and parameters
outside the model are as they were, and so is `requires_grad` after an ONNX export. -/
theorem C99_outside_unchanged (n : Net) (c : Call H C T) (s : State H C) (hs : s.ongoing = none) :
    (c.run n s).1.ongoing = none ∧ (∀ i, ¬ n.Mem i → (c.run n s).1.mods i = s.mods i) ∧
      (∀ p, p ∉ n.params → (c.run n s).1.grads p = s.grads p) := by
  obtain ⟨_, h2, h3⟩ := keeps_call n c s
  refine ⟨?_, h2, h3⟩
  have key : ∀ (M : Manager H) (body : Prog (State H C) T), (withContext M body s).1.ongoing = none := by
    intro M body
    unfold withContext
    rw [hs]
    simp
  cases c with
  | torch M w => exact key M _
  | onnx M w a =>
    simp only [Call.run, exportOnnx_eq]
    split
    · exact hs
    · exact key M _

/-- C99. An ONNX export never changes `requires_grad`, even if it raises. -/
theorem C99_onnx_grads (n : Net) (M : Manager H) (w : World H C T) (a : Bool) (s : State H C) :
    (exportOnnx n M w a s).1.grads = s.grads := funext fun p => (keeps_onnx n M w a s).2.2 p (by simp)

/-- C99. An export started while another one is running changes nothing and raises. -/
theorem C99_nested_export (n : Net) (M : Manager H) (w : World H C T) (s : State H C) (hs : s.ongoing ≠ none) :
    exportTorch n M w s = (s, .error .ongoing) ∧ exportOnnx n M w true s = (s, .error .ongoing) := by
  rcases ho : s.ongoing with _ | o
  · exact absurd ho hs
  · constructor
    · simp [exportTorch, withContext, ho, raise]
    · simp [exportOnnx, withContext, ho, raise]

/-- C99. After any history of exports, each of which may have raised anywhere, a successful export gives every caching flag of the model the
value it had before the first of them, and leaves no module it deals with in export mode or with a handler. -/
theorem C99_recovers (n : Net) (cs : List (Call H C T)) (c : Call H C T) {s s' : State H C} {t : T}
    (hs : ∀ i, n.Mem i → ∀ f, (s.mods i).backup f = none) (h : c.run n (runHistory n cs s) = (s', .ok t)) (i : ℕ) (hi : n.Mem i) :
    (s'.mods i).flag = (s.mods i).flag ∧ (∀ f, (s'.mods i).backup f = none) ∧
      (Covers n c.manager i → (s'.mods i).exportMode = false ∧ (s'.mods i).handler = none) := by
  have hk := (keeps_history n cs s).1 i
  set s0 := runHistory n cs s with hs0
  have he : eff (s0.mods i) = (s.mods i).flag := by
    rw [hk]; funext f; simp [eff, hs i hi f]
  have key : ∀ M : Manager H, s'.mods i = (if i ∈ n.tree.trainOrder then exported n M (s0.mods n.tree.root).training i (s0.mods i)
        else s0.mods i) →
      (s'.mods i).flag = (s.mods i).flag ∧ (∀ f, (s'.mods i).backup f = none) ∧
      (Covers n M i → (s'.mods i).exportMode = false ∧ (s'.mods i).handler = none) := by
    intro M hm
    rw [if_pos (show i ∈ n.tree.trainOrder from hi)] at hm
    obtain ⟨h1, h2, h3, h4, h5⟩ := exported_fields n M (s0.mods n.tree.root).training i (s0.mods i)
    rw [hm]
    exact ⟨h4.trans he, fun f => by rw [h5], fun hc => ⟨by rw [h2, if_pos (show covered n M i from hc)], by rw [h1, if_pos (show covered n M i from hc)]⟩⟩
  cases c with
  | torch M w => exact key M ((torch_ok h).2.2.2.1 i)
  | onnx M w a =>
    simp only [Call.run, exportOnnx_eq] at h
    split at h
    · simp [raise] at h
    · obtain ⟨_, s1, hb, rfl⟩ := withContext_ok h
      obtain ⟨s2, r, hb, hp⟩ := andThen_ok.mp hb
      obtain ⟨rfl, _⟩ := runPost_ok hp
      exact key M ((onnxBody_ok hb).2.2.1 i)

example : ((Call.torch Sample.manager Sample.world).run Sample.net
    (runHistory Sample.net [.onnx Sample.manager Sample.badForward true, .torch Sample.manager Sample.badTrace]
      (Sample.state () fun _ => true))).2 = .ok () := by rfl

/-- C99. A TorchScript export that raises while tracing leaves the model in evaluation mode, with its quantisers in export mode and
`requires_grad` off for all of its parameters. -/
theorem C99_failed_torch_trace (n : Net) (M : Manager H) (w : World H C T) {s s' : State H C} (hs : Idle n s)
    (h : exportTorch n M w s = (s', .error .trace)) :
    (∀ i, n.Mem i → (s'.mods i).training = false ∧
      (Covers n M i → (s'.mods i).exportMode = (M.handlerFor i).isSome ∧ (s'.mods i).handler = M.handlerFor i)) ∧
      ∀ p ∈ n.params, s'.grads p = false := by
  obtain ⟨h1, h2⟩ := torch_trace_error h
  refine ⟨fun i hi => ?_, fun p hp => by rw [h2 p, if_pos hp]⟩
  obtain ⟨g1, g2, g3, g4, g5⟩ := traced_fields n M i (s.mods i)
  rw [h1 i, if_pos (show i ∈ n.tree.trainOrder from hi)]
  rw [hs.handler i hi] at g1 g2
  rw [hs.exportMode i hi] at g2
  refine ⟨g3, fun hc => ⟨?_, ?_⟩⟩
  · rw [g2, if_pos (show covered n M i from hc)]; rcases M.handlerFor i <;> rfl
  · rw [g1, if_pos (show covered n M i from hc)]; rfl

/-- C99. An ONNX export that raises while tracing leaves the model in evaluation mode, with its quantisers in export mode and without caching
of activations. -/
theorem C99_failed_onnx_trace (n : Net) (M : Manager H) (w : World H C T) (a : Bool) {s s' : State H C} (hs : Idle n s)
    (h : exportOnnx n M w a s = (s', .error .trace)) (i : ℕ) (hi : n.Mem i) :
    (s'.mods i).training = false ∧ (s'.mods i).flag .act = ((s.mods i).flag .act).map (fun _ => false) ∧
      (Covers n M i → (s'.mods i).exportMode = (M.handlerFor i).isSome ∧ (s'.mods i).handler = M.handlerFor i) := by
  rw [exportOnnx_eq] at h
  split at h
  · simp [raise] at h
  · obtain ⟨_, s1, hb, rfl⟩ := withContext_error h (by simp)
    rcases andThen_error.mp hb with hb | ⟨s2, r, hb, hp⟩
    · have hm := (onnxBody_error (Or.inl rfl) hb).2 i
      obtain ⟨g1, g2, g3, g4, g5⟩ := traced_fields n M i (s.mods i)
      obtain ⟨q1, q2, q3⟩ := override_fields .act false (traced n M i (s.mods i))
      have he : eff (s.mods i) = (s.mods i).flag := by funext f; simp [eff, hs.backup i hi f]
      simp only
      rw [hm, if_pos (show i ∈ n.tree.trainOrder from hi)]
      simp only
      rw [hs.handler i hi] at g1 g2
      rw [hs.exportMode i hi] at g2
      refine ⟨q1.trans g3, ?_, fun hc => ⟨?_, ?_⟩⟩
      · unfold overrideFlag
        rw [g4, g5, he]
        rcases hf : (s.mods i).flag .act with _ | v
        · simp [g4, he, hf]
        · simp
      · rw [q2, g2, if_pos (show covered n M i from hc)]; rcases M.handlerFor i <;> rfl
      · rw [q3, g1, if_pos (show covered n M i from hc)]; rfl
    · unfold runPost at hp
      split at hp <;> simp [ret, raise] at hp

example : (exportTorch Sample.net Sample.manager Sample.badTrace (Sample.state () fun _ => true)).2 = .error .trace := by rfl
example : (exportOnnx Sample.net Sample.manager Sample.badTrace true (Sample.state () fun _ => true)).2 = .error .trace := by rfl

/-- C99, negation: an export that raises because of an unsupported quantiser leaves the whole model in evaluation mode. -/
theorem C99_unsupported_leaves_eval :
    ∃ s : State Unit Unit, Idle Sample.net s ∧ (s.mods 0).training = true ∧
      ((Call.onnx Sample.noHandler Sample.world true).run Sample.net s).2 = .error (.unsupported 1) ∧
      ((((Call.onnx Sample.noHandler Sample.world true).run Sample.net s).1).mods 0).training = false :=
  ⟨Sample.state () fun _ => true, ⟨rfl, fun _ _ => rfl, fun _ _ => rfl, fun _ _ _ => rfl, fun _ _ => rfl⟩, rfl, rfl, rfl⟩

/-- C99, negation: a TorchScript export that raised while tracing, followed by one that succeeds, leaves parameters that no longer require
gradients and a model in evaluation mode. -/
theorem C99_grads_lost :
    ∃ s : State Unit Unit, Idle Sample.net s ∧ (s.mods 0).training = true ∧ s.grads 0 = true ∧
      ((Call.torch Sample.manager Sample.world).run Sample.net
        (runHistory Sample.net [.torch Sample.manager Sample.badTrace] s)).2 = .ok () ∧
      ((((Call.torch Sample.manager Sample.world).run Sample.net
        (runHistory Sample.net [.torch Sample.manager Sample.badTrace] s)).1).mods 0).training = false ∧
      (((Call.torch Sample.manager Sample.world).run Sample.net
        (runHistory Sample.net [.torch Sample.manager Sample.badTrace] s)).1).grads 0 = false :=
  ⟨Sample.state () fun _ => true, ⟨rfl, fun _ _ => rfl, fun _ _ => rfl, fun _ _ _ => rfl, fun _ _ => rfl⟩, rfl, rfl, rfl, rfl, rfl⟩

/-- C99, negation: an ONNX export that raised while tracing is tried again with another input. The dummy forward pass of the second export does
not cache activations, so that the exporter works with what the first one had cached. -/
theorem C99_retry_uses_stale_cache :
    ∃ s : State Unit (Option ℕ), Idle Sample.net s ∧
      ((Call.onnx Sample.manager (Sample.cachesInput 2) true).run Sample.net s).2 = .ok (some 2) ∧
      ((Call.onnx Sample.manager (Sample.cachesInput 2) true).run Sample.net
        (runHistory Sample.net [.onnx Sample.manager { Sample.cachesInput 1 with trace := fun _ => none } true] s)).2 = .ok (some 1) :=
  ⟨Sample.state none fun _ => true, ⟨rfl, fun _ _ => rfl, fun _ _ => rfl, fun _ _ _ => rfl, fun _ _ => rfl⟩, rfl, rfl⟩

end Brevitas.ExportRun
