import Verif.Lemmas.InferMode

/-!
# C101: `quant_inference_mode` gives the model back

The first call in the block fills the caches with the model as it was, then a hook switches the model over; leaving the block switches it back, also if calls or
the hook raised.
-/

namespace Brevitas.InferMode

open Brevitas.ExportRun (Tree Kind Info Net)

variable {H C : Type*}

/-- The state right after entering. -/
theorem enter_fresh {n : Net} {c : ℕ} {s : State H C} (hs : s.hooks = []) (hc : Fresh c s) :
    (enter n c s).hooks = [(s.next, c)] ∧ ((enter n c s).ctxs c).hookList = [s.next] := by
  rw [enter_eq n c s hc.1, hs]
  simp [hc.2.1]

/-- After leaving: every module that inference mode switches over is out of export mode and has no handler; every other module has the handler and export mode it
had; `return_quant_tensor` and training mode are what they were everywhere, modules outside the model are untouched, and the hook is gone. -/
theorem C101_restores (n : Net) (w : World H C) (c : ℕ) (ws : List (World H C)) (s : State H C) (hs : s.hooks = []) (hc : Fresh c s)
    (hf : Forwarded n c ws s) :
    let s' := session n w c ws s
    (∀ i, Covered n i → (s'.mods i).exportMode = false ∧ (s'.mods i).handler = none) ∧
    (∀ i, ¬ Covered n i → (s'.mods i).exportMode = (s.mods i).exportMode ∧ (s'.mods i).handler = (s.mods i).handler) ∧
    (∀ i, (s'.mods i).returnQuantTensor = (s.mods i).returnQuantTensor) ∧
    (∀ i, (s'.mods i).training = (s.mods i).training) ∧
    (∀ i, ¬ In n i → s'.mods i = s.mods i) ∧
    s'.hooks = [] := by
  obtain ⟨hh, hl⟩ := enter_fresh (n := n) hs hc
  obtain ⟨pre, v, post, rfl, hv⟩ := hf
  have hp : Phase n c (enter n c s) (calls n (pre ++ v :: post) (enter n c s)) := calls_phase hh hl _ (.waiting (enter n c s).caches)
  have hempty : (calls n (pre ++ v :: post) (enter n c s)).hooks = [] := by
    rw [calls_append, calls_cons]
    have hpre : Phase n c (enter n c s) (calls n pre (enter n c s)) := calls_phase hh hl pre (.waiting (enter n c s).caches)
    have := call_unhooks hh hl v hpre hv
    rw [calls_nohook n post _ this]
    exact this
  have hin : ∀ i, ((enter n c s).mods i).training = (s.mods i).training ∧ ((enter n c s).mods i).exportMode = (s.mods i).exportMode ∧
      ((enter n c s).mods i).handler = (s.mods i).handler ∧ ((enter n c s).mods i).returnQuantTensor = (s.mods i).returnQuantTensor ∧
      (¬ In n i → (enter n c s).mods i = s.mods i) := by
    intro i
    rw [enter_eq n c s hc.1]
    by_cases hi : In n i
    · have := entered_rest (s.ctxs c).cacheQuantWeight (s.mods i)
      simp [hi, this]
    · simp [hi]
  have hsv : ∀ i, ((enter n c s).ctxs c).saved i = none := by
    intro i
    rw [enter_eq n c s hc.1]
    simp [hc.2.2]
  unfold session
  generalize calls n (pre ++ v :: post) (enter n c s) = t at hp hempty
  dsimp only
  rw [exit_eq]
  -- what the phase says about each module
  have hphase : (∀ i, (t.mods i).training = ((enter n c s).mods i).training) ∧
      (∀ i, ¬ Covered n i → (t.mods i).exportMode = ((enter n c s).mods i).exportMode ∧ (t.mods i).handler = ((enter n c s).mods i).handler) ∧
      (∀ i, In n i → ((t.mods i).returnQuantTensor.map fun b => ((t.ctxs c).saved i).getD b) = ((enter n c s).mods i).returnQuantTensor) ∧
      (∀ i, ¬ In n i → t.mods i = (enter n c s).mods i) := by
    cases hp with
    | waiting x => rw [hh] at hempty; simp at hempty
    | failed t h' =>
      refine ⟨h'.training, ?_, ?_, ?_⟩
      · intro i hi
        rw [h'.rest i hi]; exact ⟨rfl, rfl⟩
      · intro i hi
        rw [h'.ret i, h'.ctxs]
        simp [hsv i]
      · intro i hi
        exact h'.rest i (fun hcov => hi hcov.1)
    | switched u x h' =>
      refine ⟨?_, ?_, ?_, ?_⟩
      · intro i
        by_cases hi : In n i
        · simpa [switch, hi] using h'.training i
        · simpa [switch, hi] using h'.training i
      · intro i hi
        have := h'.rest i hi
        by_cases hin : In n i
        · simp [switch, hin, this]
        · simp [switch, hin, this]
      · intro i hi
        have := h'.ret i
        simp only [switch, hi, if_true, Function.update_self, this]
        rcases ((enter n c s).mods i).returnQuantTensor with _ | b <;> simp
      · intro i hi
        have := h'.rest i (fun hcov => hi hcov.1)
        simp [switch, hi, this]
  obtain ⟨p1, p2, p3, p4⟩ := hphase
  refine ⟨?_, ?_, ?_, ?_, ?_, hempty⟩
  · intro i hi
    have := leave_rest n (t.ctxs c) i (t.mods i)
    simp only [hi.1, if_true]
    rw [this.2.2.2.1, this.2.2.1, if_pos hi, if_pos hi]
    exact ⟨rfl, rfl⟩
  · intro i hi
    have := leave_rest n (t.ctxs c) i (t.mods i)
    by_cases hin' : In n i
    · simp only [hin', if_true]
      rw [this.2.2.2.1, this.2.2.1, if_neg hi, if_neg hi, (p2 i hi).1, (p2 i hi).2]
      exact ⟨(hin i).2.1, (hin i).2.2.1⟩
    · simp only [hin', if_false]
      rw [(p2 i hi).1, (p2 i hi).2]
      exact ⟨(hin i).2.1, (hin i).2.2.1⟩
  · intro i
    have := leave_rest n (t.ctxs c) i (t.mods i)
    by_cases hin' : In n i
    · simp only [hin', if_true]
      rw [this.2.1, p3 i hin', (hin i).2.2.2.1]
    · simp only [hin', if_false]
      rw [p4 i hin', (hin i).2.2.2.1]
  · intro i
    have := leave_rest n (t.ctxs c) i (t.mods i)
    by_cases hin' : In n i
    · simp only [hin', if_true]
      rw [this.1, p1 i, (hin i).1]
    · simp only [hin', if_false]
      rw [p1 i, (hin i).1]
  · intro i hi
    simp only [hi, if_false]
    rw [p4 i hi, (hin i).2.2.2.2 hi]

/-- Until a call gets through its forward pass, the model computes as before entering, with every cache switched on; quantised weights are kept whole iff that was
asked for. -/
theorem C101_first_call (n : Net) (c : ℕ) (ws : List (World H C)) (s : State H C) (hs : s.hooks = []) (hc : Fresh c s)
    (hn : NeverForwarded n ws (enter n c s)) :
    let t := calls n ws (enter n c s)
    (∀ i, (t.mods i).exportMode = (s.mods i).exportMode ∧ (t.mods i).handler = (s.mods i).handler ∧
      (t.mods i).returnQuantTensor = (s.mods i).returnQuantTensor ∧ (t.mods i).training = (s.mods i).training) ∧
    (∀ i f, In n i → ((s.mods i).caching f).isSome → (t.mods i).caching f = some true) ∧
    (∀ i, In n i → ((s.mods i).caching .weight).isSome → (t.mods i).metadataOnly .weight = some (!(s.ctxs c).cacheQuantWeight)) := by
  have hw : calls n ws (enter n c s) = { enter n c s with caches := (calls n ws (enter n c s)).caches } := by
    generalize enter n c s = s1 at hn
    induction ws generalizing s1 with
    | nil => rfl
    | cons v ws ih =>
      have hv := hn [] v ws rfl
      have h1 : (call n v s1).1 = { s1 with caches := (v.forward s1).1 } := by
        unfold call
        rw [if_neg]
        intro h; simp only [calls, List.foldl_nil] at hv; rw [hv] at h; simp at h
      have := ih (call n v s1).1 (by
        intro pre x post hx
        have := hn (v :: pre) x post (by rw [hx]; rfl)
        rwa [calls_cons] at this)
      rw [calls_cons]
      rw [h1] at this ⊢
      exact this
  dsimp only
  rw [hw, enter_eq n c s hc.1]
  refine ⟨?_, ?_, ?_⟩
  · intro i
    have := entered_rest (s.ctxs c).cacheQuantWeight (s.mods i)
    by_cases hi : In n i
    · simp [hi, this]
    · simp [hi]
  · intro i f hi hsome
    obtain ⟨b, hb⟩ := Option.isSome_iff_exists.mp hsome
    simp [hi, entered_caching, hb]
  · intro i hi hsome
    obtain ⟨b, hb⟩ := Option.isSome_iff_exists.mp hsome
    simp [hi, entered, override_meta, override_caching, hb]

/-- If the first call that gets through its forward pass does not raise, then it leaves every covered module that needs a handler in export mode with one (the
module's own if it had one, else the manager's), no module returns a quantised tensor, and the calls that follow change nothing but caches. -/
theorem C101_inside (n : Net) (w : World H C) (c : ℕ) (pre post : List (World H C)) (s t : State H C) (hs : s.hooks = []) (hc : Fresh c s)
    (hn : NeverForwarded n pre (enter n c s)) (hf : (w.forward (calls n pre (enter n c s))).2 = true)
    (hok : call n w (calls n pre (enter n c s)) = (t, none)) :
    (∀ i, Covered n i → (n.info i).required = true →
      (t.mods i).exportMode = true ∧ (t.mods i).handler = ((s.mods i).handler).or (w.handlerFor i) ∧ ((t.mods i).handler).isSome) ∧
    (∀ i, Covered n i → (s.mods i).training = false) ∧
    (∀ i, In n i → (t.mods i).returnQuantTensor = (s.mods i).returnQuantTensor.map fun _ => false) ∧
    (calls n post t).mods = t.mods := by
  obtain ⟨hh, hl⟩ := enter_fresh (n := n) hs hc
  have hfirst := C101_first_call n c pre s hs hc hn
  have hp : Phase n c (enter n c s) (calls n pre (enter n c s)) := calls_phase hh hl pre (.waiting (enter n c s).caches)
  have hun := call_unhooks hh hl w hp hf
  have hhooks : (calls n pre (enter n c s)).hooks = [(s.next, c)] ∧ ((calls n pre (enter n c s)).ctxs c).hookList = [s.next] := by
    -- before the first forward pass the hook is still there
    have : ∀ (ws : List (World H C)) (s1 : State H C), NeverForwarded n ws s1 → (calls n ws s1).hooks = s1.hooks ∧ (calls n ws s1).ctxs = s1.ctxs := by
      intro ws
      induction ws with
      | nil => intro s1 _; exact ⟨rfl, rfl⟩
      | cons v ws ih =>
        intro s1 hn
        have hv := hn [] v ws rfl
        have h1 : (call n v s1).1 = { s1 with caches := (v.forward s1).1 } := by
          unfold call
          rw [if_neg]
          intro h; simp only [calls, List.foldl_nil] at hv; rw [hv] at h; simp at h
        have := ih (call n v s1).1 (by
          intro pre x post hx
          have := hn (v :: pre) x post (by rw [hx]; rfl)
          rwa [calls_cons] at this)
        rw [calls_cons]
        rw [h1] at this ⊢
        exact this
    obtain ⟨a, b⟩ := this pre _ hn
    rw [a, b]
    exact ⟨hh, hl⟩
  generalize calls n pre (enter n c s) = r at *
  obtain ⟨hr1, hr2⟩ := hhooks
  rw [call_hook n w c s.next r hr1 hf] at hok
  rcases hook_cases n w c s.next { r with caches := (w.forward r).1 } hr2 with ⟨e, t', he, -⟩ | ⟨u, t', he, h1, h2, h3⟩
  · rw [he] at hok; simp at hok
  rw [he] at hok
  simp only [Prod.mk.injEq, and_true] at hok
  have hsw : ∀ i, (t.mods i).exportMode = (t'.mods i).exportMode ∧ (t.mods i).handler = (t'.mods i).handler := by
    intro i
    rw [← hok]
    by_cases hi : In n i
    · simp [switch, hi]
    · simp [switch, hi]
  have hrs : ∀ i, (s.mods i).handler = ((unhook s.next { r with caches := (w.forward r).1 }).mods i).handler := by
    intro i
    exact (hfirst.1 i).2.1.symm
  obtain ⟨m1, m2⟩ := exportModes_ok h2
  refine ⟨?_, ?_, ?_, ?_⟩
  · intro i hi hreq
    have ho := m1 i hi
    have hh' := handlers_ok h1 i hi
    rcases ho.2.2 with ⟨ha, hb⟩ | ⟨hb, -⟩
    · rw [(hsw i).1, (hsw i).2]
      refine ⟨ha, ?_, hb⟩
      rw [m2 i, hh'.1, ← hrs i]
    · rw [hreq] at hb; simp at hb
  · intro i hi
    have ho := (m1 i hi).2.1
    rw [h3.training i] at ho
    rw [← (hfirst.1 i).2.2.2]
    exact ho
  · intro i hi
    rw [← hok]
    simp only [switch, hi, if_true]
    rw [h3.ret i, ← (hfirst.1 i).2.2.1]
    rfl
  · have hth : t.hooks = [] := by
      rw [← hok]
      have := h3.hooks
      rw [unhook_one s.next c { r with caches := (w.forward r).1 } hr1] at this
      exact this
    rw [calls_nohook n post t hth]

/-- A covered module that needs a handler but for which there is none, or that is in training mode, makes the first call that gets through its forward pass
raise (after which leaving still gives the model back, see `C101_restores`). -/
theorem C101_refuses (n : Net) (w : World H C) (c i : ℕ) (pre : List (World H C)) (s : State H C) (hs : s.hooks = []) (hc : Fresh c s)
    (hn : NeverForwarded n pre (enter n c s)) (hf : (w.forward (calls n pre (enter n c s))).2 = true) (hi : Covered n i)
    (hbad : ((n.info i).required = true ∧ (s.mods i).handler = none ∧ w.handlerFor i = none) ∨ (s.mods i).training = true) :
    (call n w (calls n pre (enter n c s))).2 ≠ none := by
  intro hno
  obtain ⟨h1, h2, -, -⟩ := C101_inside n w c pre [] s (call n w (calls n pre (enter n c s))).1 hs hc hn hf (by rw [← hno])
  rcases hbad with ⟨hr, ha, hb⟩ | ht
  · obtain ⟨-, h4, h5⟩ := h1 i hi hr
    rw [h4, ha, hb] at h5
    simp at h5
  · rw [h2 i hi] at ht; simp at ht

/-! ### Where the code falls short -/

/-- The caching flags are not given back: whatever they were, leaving switches off those of biases and activations, and leaves those of weights on if the quantised
weights were not kept. Also with `enabled=False` the flags of biases and activations are off afterwards. -/
theorem C101_flags_forced (n : Net) (w : World H C) (c : ℕ) (t : State H C) (i : ℕ) (hi : In n i) :
    (((exit n w c t).mods i).caching .bias = ((t.mods i).caching .bias).map fun _ => false) ∧
    (((exit n w c t).mods i).caching .act = ((t.mods i).caching .act).map fun _ => false) ∧
    (((exit n w c t).mods i).caching .weight =
      if (t.ctxs c).cacheQuantWeight then ((t.mods i).caching .weight).map fun _ => false else (t.mods i).caching .weight) := by
  rw [exit_eq]
  simp only [hi, if_true, (leave_rest n (t.ctxs c) i (t.mods i)).2.2.2.2, left_caching]
  rcases (t.ctxs c).cacheQuantWeight <;> simp

/-- A context object that has been used and is entered again: from then on every call that gets through its forward pass raises an assertion error, inside the block and
after it, for ever. -/
theorem C101_reuse_breaks (n : Net) (w v : World H C) (c : ℕ) (ws ws' : List (World H C)) (s : State H C) (h0 : ℕ) (hs : s.hooks = [])
    (he : (s.ctxs c).enabled = true) (hu : (s.ctxs c).hookList = [h0]) :
    ((v.forward (calls n ws (enter n c s))).2 = true → (call n v (calls n ws (enter n c s))).2 = some .assertion) ∧
    ((v.forward (calls n ws' (session n w c ws s))).2 = true → (call n v (calls n ws' (session n w c ws s))).2 = some .assertion) := by
  have key : ∀ t : State H C, t.hooks = [(s.next, c)] → (t.ctxs c).hookList = [h0, s.next] → ∀ x : World H C,
      ((x.forward t).2 = true → (call n x t).2 = some .assertion) ∧ (call n x t).1 = { t with caches := (x.forward t).1 } := by
    intro t h1 h2 x
    by_cases hf : (x.forward t).2 = true
    · rw [call_hook n x c s.next t h1 hf]
      unfold hook
      simp only [h2]
      exact ⟨fun _ => trivial, trivial⟩
    · refine ⟨fun h => absurd h hf, ?_⟩
      unfold call
      rw [if_neg hf]
  have many : ∀ (l : List (World H C)) (t : State H C), t.hooks = [(s.next, c)] → (t.ctxs c).hookList = [h0, s.next] →
      (calls n l t).hooks = [(s.next, c)] ∧ ((calls n l t).ctxs c).hookList = [h0, s.next] := by
    intro l
    induction l with
    | nil => intro t h1 h2; exact ⟨h1, h2⟩
    | cons x l ih =>
      intro t h1 h2
      rw [calls_cons, (key t h1 h2 x).2]
      exact ih _ h1 h2
  have hent : (enter n c s).hooks = [(s.next, c)] ∧ ((enter n c s).ctxs c).hookList = [h0, s.next] := by
    rw [enter_eq n c s he, hs]
    simp [hu]
  have h1 := many ws _ hent.1 hent.2
  refine ⟨(key _ h1.1 h1.2 v).1, ?_⟩
  have h2 : (session n w c ws s).hooks = [(s.next, c)] ∧ ((session n w c ws s).ctxs c).hookList = [h0, s.next] := by
    unfold session
    rw [exit_eq]
    exact h1
  have h3 := many ws' _ h2.1 h2.2
  exact (key _ h3.1 h3.2 v).1

/-! ### A model to try it on -/

/-- A layer with a proxy of its weight and an activation proxy. -/
def Sample.net : Net where
  tree := .node 0 [.node 1 [], .node 2 []]
  info i := if i = 0 then ⟨.layer, true, true⟩ else ⟨.proxy, true, true⟩
  params := []

/-- Everything is supported and works. -/
def Sample.world : World ℕ ℕ where
  jitEnabled := false
  handlerFor i := some (100 + i)
  prepare s _ := (s.caches, true)
  forward s := (s.caches + 1, true)

/-- There is no handler for module 2. -/
def Sample.unsupported : World ℕ ℕ := { Sample.world with handlerFor := fun i => if i = 2 then none else some (100 + i) }

/-- In evaluation mode, the layer returns quantised tensors, the bias flag of the layer and the activation flag of module 2 are on. -/
def Sample.state : State ℕ ℕ where
  mods i := ⟨false, false, none, fun f => if i = 0 ∧ f = .bias then some true else if i = 1 ∧ f = .weight then some false
    else if i = 2 ∧ f = .act then some true else none, fun _ => none, if i = 0 then some true else none⟩
  ctxs c := ⟨c = 1, c ≠ 2, [], fun _ => none⟩
  hooks := []
  next := 0
  caches := 0

example : Sample.state.hooks = [] ∧ Fresh 0 Sample.state ∧ Fresh 1 Sample.state ∧ Forwarded Sample.net 0 [Sample.world, Sample.world] Sample.state ∧
    Covered Sample.net 1 ∧ Covered Sample.net 2 ∧ ¬ Covered Sample.net 0 :=
  ⟨rfl, ⟨by decide, rfl, fun _ => rfl⟩, ⟨by decide, rfl, fun _ => rfl⟩, ⟨[], _, _, rfl, rfl⟩, by decide, by decide, by decide⟩

example : let t := (call Sample.net Sample.world (enter Sample.net 0 Sample.state)).1
    ((t.mods 1).exportMode, (t.mods 1).handler, (t.mods 2).exportMode, (t.mods 0).returnQuantTensor, t.hooks) = (true, some 101, true, some false, []) := by
  decide

example : (call Sample.net Sample.unsupported (enter Sample.net 0 Sample.state)).2 = some (.unsupported 2) := by decide

/-- Leaving the block without a call leaves the hook behind: the next call of the model, outside, switches it over, and nothing switches it back. -/
theorem C101_hook_left_behind : ∃ (n : Net) (w : World ℕ ℕ) (c : ℕ) (s : State ℕ ℕ), s.hooks = [] ∧ Fresh c s ∧
    (s.mods 1).exportMode = false ∧ (s.mods 0).returnQuantTensor = some true ∧
    ((calls n [w] (session n w c [] s)).mods 1).exportMode = true ∧
    ((calls n [w] (session n w c [] s)).mods 0).returnQuantTensor = some false :=
  ⟨Sample.net, Sample.world, 0, Sample.state, rfl, ⟨by decide, rfl, fun _ => rfl⟩, rfl, rfl, by decide, by decide⟩

/-- Flags that were on before are off after; the flag of the weight, off before, is on after. -/
theorem C101_flags_not_restored : ∃ (n : Net) (w : World ℕ ℕ) (c : ℕ) (s : State ℕ ℕ), s.hooks = [] ∧ Fresh c s ∧
    (s.mods 0).caching .bias = some true ∧ ((session n w c [w] s).mods 0).caching .bias = some false ∧
    (s.mods 2).caching .act = some true ∧ ((session n w c [w] s).mods 2).caching .act = some false ∧
    (s.mods 1).caching .weight = some false ∧ ((session n w c [w] s).mods 1).caching .weight = some true :=
  ⟨Sample.net, Sample.world, 0, Sample.state, rfl, ⟨by decide, rfl, fun _ => rfl⟩, by decide, by decide, by decide, by decide, by decide, by decide⟩

/-- A context object with `enabled=False` is not without effect. -/
theorem C101_disabled_not_neutral : ∃ (n : Net) (w : World ℕ ℕ) (c : ℕ) (s : State ℕ ℕ), (s.ctxs c).enabled = false ∧
    (s.mods 0).caching .bias = some true ∧ ((session n w c [w] s).mods 0).caching .bias = some false :=
  ⟨Sample.net, Sample.world, 2, Sample.state, by decide, by decide, by decide⟩

/-- One object used twice in a row, on a model on which it works once. -/
example : let s := session Sample.net Sample.world 0 [Sample.world] Sample.state
    s.hooks = [] ∧ (s.ctxs 0).enabled = true ∧ (s.ctxs 0).hookList = [0] ∧
    (call Sample.net Sample.world (enter Sample.net 0 s)).2 = some .assertion := by
  refine ⟨by decide, by decide, by decide, by decide⟩

end Brevitas.InferMode
