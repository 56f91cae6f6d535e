import Verif.Spec.InferMode
import Verif.Lemmas.ExportRun

/-! # Lemmas about `quant_inference_mode` -/

namespace Brevitas.InferMode

open Brevitas.ExportRun (Tree Kind Info Net)

variable {H C : Type*}

instance (n : Net) (i : ℕ) : Decidable (In n i) := inferInstanceAs (Decidable (i ∈ n.tree.modules))

theorem mem_applyOrder {n : Net} {i : ℕ} : i ∈ n.tree.applyOrder ↔ In n i := by
  rw [Tree.mem_apply_iff, In, Tree.mem_modules_iff]

theorem foldl_setMod (g : Attrs H → Attrs H) (hg : ∀ m, g (g m) = g m) (l : List ℕ) (s : State H C) :
    l.foldl (fun s i => setMod i g s) s = { s with mods := fun i => if i ∈ l then g (s.mods i) else s.mods i } := by
  induction l generalizing s with
  | nil => simp
  | cons a l ih =>
    rw [List.foldl_cons, ih]
    simp only [setMod]
    congr 1
    funext i
    by_cases hi : i = a
    · subst hi
      simp [hg]
    · simp [hi]

theorem override_idem (f : Flag) (a b : Bool) (m : Attrs H) : overrideCaching f a b (overrideCaching f a b m) = overrideCaching f a b m := by
  unfold overrideCaching
  by_cases h : (m.caching f).isSome
  · simp [h]
  · simp [h]

theorem applyAll_override (n : Net) (f : Flag) (a b : Bool) (s : State H C) :
    applyAll n (overrideCaching f a b) s =
      { s with mods := fun i => if In n i then overrideCaching f a b (s.mods i) else s.mods i } := by
  unfold applyAll
  rw [foldl_setMod _ (override_idem f a b)]
  simp only [mem_applyOrder]

/-- What entering does to a module. -/
def entered (cqw : Bool) (m : Attrs H) : Attrs H :=
  overrideCaching .weight true (!cqw) (overrideCaching .act true true (overrideCaching .bias true true m))

theorem enter_eq (n : Net) (c : ℕ) (s : State H C) (he : (s.ctxs c).enabled = true) :
    enter n c s = { mods := fun i => if In n i then entered (s.ctxs c).cacheQuantWeight (s.mods i) else s.mods i,
                    ctxs := Function.update s.ctxs c { s.ctxs c with hookList := (s.ctxs c).hookList ++ [s.next] },
                    hooks := s.hooks ++ [(s.next, c)], next := s.next + 1, caches := s.caches } := by
  unfold enter
  rw [if_pos he]
  simp only [applyAll_override]
  congr 1
  funext i
  by_cases hi : In n i
  · simp [hi, entered]
  · simp [hi]

theorem override_rest (f : Flag) (a b : Bool) (m : Attrs H) :
    (overrideCaching f a b m).training = m.training ∧ (overrideCaching f a b m).exportMode = m.exportMode ∧
    (overrideCaching f a b m).handler = m.handler ∧ (overrideCaching f a b m).returnQuantTensor = m.returnQuantTensor := by
  unfold overrideCaching
  by_cases h : (m.caching f).isSome
  · simp [h]
  · simp [h]

theorem override_caching (f g : Flag) (a b : Bool) (m : Attrs H) :
    (overrideCaching f a b m).caching g = if g = f then (m.caching g).map fun _ => a else m.caching g := by
  unfold overrideCaching
  by_cases h : (m.caching f).isSome
  · obtain ⟨v, hv⟩ := Option.isSome_iff_exists.mp h
    by_cases hg : g = f
    · subst hg; simp [hv]
    · simp [h, hg]
  · have hn : m.caching f = none := by simpa using h
    by_cases hg : g = f
    · subst hg; simp [hn]
    · simp [hn, hg]

theorem override_meta (f g : Flag) (a b : Bool) (m : Attrs H) :
    (overrideCaching f a b m).metadataOnly g = if g = f ∧ (m.caching f).isSome = true then some b else m.metadataOnly g := by
  unfold overrideCaching
  by_cases h : (m.caching f).isSome
  · by_cases hg : g = f
    · subst hg; simp [h]
    · simp [h, hg]
  · simp [h]

/-! ### Loops -/

theorem loop_keeps {S A : Type*} {R : S → S → Prop} (hr : ∀ s, R s s) (ht : ∀ a b c, R a b → R b c → R a c) {body : A → S → S × Option Err}
    {l : List A} (hb : ∀ a ∈ l, ∀ s, R s (body a s).1) (s : S) : R s (loop body l s).1 := by
  induction l generalizing s with
  | nil => exact hr s
  | cons a l ih =>
    have h1 := hb a (by simp) s
    unfold loop
    rcases hbs : body a s with ⟨s', o⟩
    rw [hbs] at h1
    cases o with
    | none => exact ht _ _ _ h1 (ih (fun a ha => hb a (by simp [ha])) s')
    | some e => exact h1

theorem loop_ok {S A : Type*} {body : A → S → S × Option Err} {l : List A} {Q : A → S → Prop}
    (hq : ∀ a ∈ l, ∀ s s', body a s = (s', none) → Q a s') (hk : ∀ a ∈ l, ∀ b s s', body b s = (s', none) → Q a s → Q a s')
    {s s' : S} (h : loop body l s = (s', none)) : ∀ a ∈ l, Q a s' := by
  induction l generalizing s with
  | nil => simp
  | cons a l ih =>
    unfold loop at h
    rcases hbs : body a s with ⟨s1, o⟩
    rw [hbs] at h
    cases o with
    | some e => simp at h
    | none =>
      simp only at h
      have hrest := ih (fun a ha => hq a (by simp [ha])) (fun a ha => hk a (by simp [ha])) h
      intro x hx
      rcases List.mem_cons.mp hx with rfl | hx
      · have h1 := hq x (by simp) s s1 hbs
        clear ih hrest hq hbs
        have hk' := hk x (by simp)
        clear hk hx
        induction l generalizing s1 with
        | nil => simp [loop] at h; rw [← h]; exact h1
        | cons b l ihl =>
          unfold loop at h
          rcases hbs : body b s1 with ⟨s2, o⟩
          rw [hbs] at h
          cases o with
          | some e => simp at h
          | none => exact ihl s2 h (hk' b s1 s2 hbs h1)
      · exact hrest x hx

theorem loop_ok_keeps {S A : Type*} {body : A → S → S × Option Err} {l : List A} {Q : S → Prop}
    (hk : ∀ b s s', body b s = (s', none) → Q s → Q s') {s s' : S} (h : loop body l s = (s', none)) (hs : Q s) : Q s' := by
  induction l generalizing s with
  | nil => simp [loop] at h; rw [← h]; exact hs
  | cons b l ih =>
    unfold loop at h
    rcases hbs : body b s with ⟨s2, o⟩
    rw [hbs] at h
    cases o with
    | some e => simp at h
    | none => exact ih h (hk b s s2 hbs hs)

/-- Only handlers, export modes and caches differ, and handlers and export modes only for covered modules. -/
structure Same (n : Net) (s t : State H C) : Prop where
  training : ∀ i, (t.mods i).training = (s.mods i).training
  caching : ∀ i, (t.mods i).caching = (s.mods i).caching
  metadataOnly : ∀ i, (t.mods i).metadataOnly = (s.mods i).metadataOnly
  ret : ∀ i, (t.mods i).returnQuantTensor = (s.mods i).returnQuantTensor
  rest : ∀ i, ¬ Covered n i → t.mods i = s.mods i
  ctxs : t.ctxs = s.ctxs
  hooks : t.hooks = s.hooks
  next : t.next = s.next

theorem Same.refl (n : Net) (s : State H C) : Same n s s := ⟨by simp, by simp, by simp, by simp, by simp, rfl, rfl, rfl⟩

theorem Same.trans {n : Net} {s t u : State H C} (h : Same n s t) (h' : Same n t u) : Same n s u :=
  ⟨fun i => (h'.training i).trans (h.training i), fun i => (h'.caching i).trans (h.caching i),
    fun i => (h'.metadataOnly i).trans (h.metadataOnly i), fun i => (h'.ret i).trans (h.ret i),
    fun i hi => (h'.rest i hi).trans (h.rest i hi), h'.ctxs.trans h.ctxs, h'.hooks.trans h.hooks, h'.next.trans h.next⟩

theorem same_caches (n : Net) (s : State H C) (x : C) : Same n s { s with caches := x } :=
  ⟨by simp, by simp, by simp, by simp, by simp, rfl, rfl, rfl⟩

theorem same_setMod (n : Net) (s : State H C) (i : ℕ) (hi : Covered n i) (f : Attrs H → Attrs H)
    (hf : ∀ m, (f m).training = m.training ∧ (f m).caching = m.caching ∧ (f m).metadataOnly = m.metadataOnly ∧
      (f m).returnQuantTensor = m.returnQuantTensor) : Same n s (setMod i f s) := by
  have hu : ∀ j, (setMod i f s).mods j = if j = i then f (s.mods i) else s.mods j := by
    intro j; simp [setMod, Function.update_apply]
  refine ⟨?_, ?_, ?_, ?_, ?_, rfl, rfl, rfl⟩
  · intro j; rw [hu]; split_ifs with h
    · rw [h, (hf _).1]
    · rfl
  · intro j; rw [hu]; split_ifs with h
    · rw [h, (hf _).2.1]
    · rfl
  · intro j; rw [hu]; split_ifs with h
    · rw [h, (hf _).2.2.1]
    · rfl
  · intro j; rw [hu]; split_ifs with h
    · rw [h, (hf _).2.2.2]
    · rfl
  · intro j hj
    rw [hu, if_neg]
    rintro rfl
    exact hj hi

theorem same_handler (n : Net) (w : World H C) (i : ℕ) (hi : In n i) (s : State H C) : Same n s (setExportHandler n w i s).1 := by
  unfold setExportHandler
  by_cases h : ((n.info i).kind = .proxy ∨ (n.info i).kind = .recurrent) ∧ (n.info i).exportable ∧ (s.mods i).handler.isNone
  · rw [if_pos h]
    rcases w.handlerFor i with _ | x
    · dsimp only
      by_cases hr : (n.info i).required = true
      · rw [if_pos hr]; exact Same.refl n s
      · rw [if_neg hr]; exact Same.refl n s
    · exact same_setMod n s i ⟨hi, h.1, h.2.1⟩ (fun m => { m with handler := some x }) (fun m => ⟨rfl, rfl, rfl, rfl⟩)
  · rw [if_neg h]
    exact Same.refl n s

theorem same_mode (n : Net) (w : World H C) (v : Bool) (i : ℕ) (hi : Covered n i) (s : State H C) : Same n s (setExportMode n w v i s).1 := by
  unfold setExportMode
  split_ifs with h1 h2 h3 h4 h5 h6
  · exact Same.refl n s
  · exact Same.refl n s
  · exact Same.refl n s
  · exact Same.refl n s
  · dsimp only
    split_ifs with h6
    · exact Same.trans (same_caches n s _) (same_setMod n _ i hi (fun m => { m with exportMode := v }) (fun m => ⟨rfl, rfl, rfl, rfl⟩))
    · exact same_caches n s _
  · exact same_setMod n s i hi (fun m => { m with handler := none, exportMode := v }) (fun m => ⟨rfl, rfl, rfl, rfl⟩)
  · exact same_setMod n s i hi (fun m => { m with exportMode := v }) (fun m => ⟨rfl, rfl, rfl, rfl⟩)

theorem same_modes (n : Net) (w : World H C) (v : Bool) (k : Kind) (hk : k = .proxy ∨ k = .recurrent) (s : State H C) :
    Same n s (setModes n w v k s).1 := by
  unfold setModes
  refine loop_keeps (Same.refl n) (fun _ _ _ => Same.trans) ?_ s
  intro i hi s
  split_ifs with h
  · exact same_mode n w v i ⟨hi, by rw [h.1]; exact hk, h.2⟩ s
  · exact Same.refl n s

theorem same_exportModes (n : Net) (w : World H C) (v : Bool) (s : State H C) : Same n s (setExportModes n w v s).1 := by
  have h1 := same_modes n w v .proxy (Or.inl rfl) s
  unfold setExportModes
  rcases hs : setModes n w v .proxy s with ⟨s1, o⟩
  rw [hs] at h1
  cases o with
  | none => exact h1.trans (same_modes n w v .recurrent (Or.inr rfl) s1)
  | some e => exact h1

/-! ### Leaving export mode -/

/-- Export mode off. -/
def off (m : Attrs H) : Attrs H := { m with handler := none, exportMode := false }

theorem setExportMode_false (n : Net) (w : World H C) (i : ℕ) (s : State H C) : setExportMode n w false i s = (setMod i off s, none) := by
  unfold setExportMode
  simp only [Bool.false_and, Bool.false_eq_true, if_false, Bool.not_false, Bool.true_and]
  by_cases h : (s.mods i).handler.isSome
  · rw [if_pos h]; rfl
  · rw [if_neg h]
    have hn : (s.mods i).handler = none := by simpa using h
    have : off (s.mods i) = { s.mods i with exportMode := false } := by
      simp only [off]; rw [← hn]
    simp only [setMod, this]

theorem modes_off_aux (n : Net) (w : World H C) (k : Kind) (l : List ℕ) (s : State H C) :
    loop (fun i s => if (n.info i).kind = k ∧ (n.info i).exportable then setExportMode n w false i s else (s, none)) l s =
      ({ s with mods := fun i => if i ∈ l ∧ (n.info i).kind = k ∧ (n.info i).exportable = true then off (s.mods i) else s.mods i }, none) := by
  induction l generalizing s with
  | nil => simp [loop]
  | cons a l ih =>
    unfold loop
    by_cases ha : (n.info a).kind = k ∧ (n.info a).exportable = true
    · rw [if_pos ha, setExportMode_false]
      simp only
      rw [ih]
      simp only [setMod, Prod.mk.injEq, and_true]
      congr 1
      funext i
      by_cases hi : i = a
      · subst hi
        simp [ha, off]
      · simp [hi]
    · rw [if_neg ha]
      simp only
      rw [ih]
      simp only [Prod.mk.injEq, and_true]
      congr 1
      funext i
      by_cases hi : i = a
      · subst hi
        simp [ha]
      · simp [hi]

instance (n : Net) (i : ℕ) : Decidable (Covered n i) := by unfold Covered; infer_instance

/-- Leaving export mode never raises. -/
theorem modes_off (n : Net) (w : World H C) (s : State H C) :
    setExportModes n w false s = ({ s with mods := fun i => if Covered n i then off (s.mods i) else s.mods i }, none) := by
  unfold setExportModes setModes
  rw [modes_off_aux]
  simp only
  rw [modes_off_aux]
  simp only [Prod.mk.injEq, and_true]
  congr 1
  funext i
  unfold Covered In
  by_cases h1 : i ∈ n.tree.modules
  · by_cases h2 : (n.info i).exportable = true
    · by_cases h3 : (n.info i).kind = .proxy
      · simp [h1, h2, h3]
      · by_cases h4 : (n.info i).kind = .recurrent
        · simp [h1, h2, h4]
        · simp [h3, h4]
    · simp [h2]
  · simp [h1]

/-! ### `return_quant_tensor` -/

theorem disable_aux (l : List ℕ) (d : ℕ → Option Bool) (s : State H C) (hl : l.Nodup) :
    l.foldl disableStep (d, s) =
    (fun i => if i ∈ l then ((s.mods i).returnQuantTensor).or (d i) else d i,
     { s with mods := fun i => if i ∈ l then { s.mods i with returnQuantTensor := (s.mods i).returnQuantTensor.map fun _ => false }
                              else s.mods i }) := by
  induction l generalizing d s with
  | nil => simp
  | cons a l ih =>
    have hnot : a ∉ l := (List.nodup_cons.mp hl).1
    have hl' := (List.nodup_cons.mp hl).2
    rw [List.foldl_cons]
    rcases hr : (s.mods a).returnQuantTensor with _ | v
    · have hst : disableStep (d, s) a = (d, s) := by simp [disableStep, hr]
      rw [hst, ih _ _ hl']
      refine Prod.ext ?_ ?_
      · funext i
        by_cases hi : i = a
        · subst hi; simp [hnot, hr]
        · simp [hi]
      · simp only
        congr 1
        funext i
        by_cases hi : i = a
        · subst hi
          simp only [hnot, if_false, List.mem_cons, true_or, if_true, hr, Option.map_none]
          rw [← hr]
        · simp [hi]
    · have hst : disableStep (d, s) a =
          (Function.update d a (some v), setMod a (fun m => { m with returnQuantTensor := some false }) s) := by simp [disableStep, hr]
      rw [hst, ih _ _ hl']
      refine Prod.ext ?_ ?_
      · funext i
        by_cases hi : i = a
        · subst hi; simp [hnot, hr]
        · simp [hi, setMod]
      · simp only [setMod]
        congr 1
        funext i
        by_cases hi : i = a
        · subst hi; simp [hnot, hr]
        · simp [hi]

theorem modules_nodup (t : Tree) : t.modules.Nodup := by
  unfold Tree.modules
  rw [List.nodup_reverse]
  exact List.nodup_dedup _

theorem disableReturn_eq (n : Net) (s : State H C) :
    disableReturn n s =
    (fun i => if In n i then (s.mods i).returnQuantTensor else none,
     { s with mods := fun i => if In n i then { s.mods i with returnQuantTensor := (s.mods i).returnQuantTensor.map fun _ => false }
                              else s.mods i }) := by
  unfold disableReturn
  rw [disable_aux _ _ _ (modules_nodup _)]
  simp only [Option.or_none]
  rfl

theorem restore_aux (saved : ℕ → Option Bool) (l : List ℕ) (s : State H C) :
    l.foldl (restoreStep saved) s =
    { s with mods := fun i => if i ∈ l then
        { s.mods i with returnQuantTensor := (s.mods i).returnQuantTensor.map fun b => (saved i).getD b } else s.mods i } := by
  induction l generalizing s with
  | nil => simp
  | cons a l ih =>
    rw [List.foldl_cons, ih]
    have key : ∀ i, (restoreStep saved s a).mods i = if i = a then { s.mods a with returnQuantTensor := (s.mods a).returnQuantTensor.map fun b => (saved a).getD b }
        else s.mods i := by
      intro i
      unfold restoreStep
      rcases hr : (s.mods a).returnQuantTensor with _ | v
      · simp only [Option.isSome_none, Bool.false_eq_true, if_false, Option.map_none]
        split_ifs with hi
        · rw [hi, ← hr]
        · rfl
      · rcases hs : saved a with _ | b
        · simp only [Option.isSome_some, if_true, Option.map_some, Option.getD_none]
          split_ifs with hi
          · rw [hi, ← hr]
          · rfl
        · simp [setMod, Function.update_apply]
    have hrest : ∀ t : State H C, t = { s with mods := t.mods } → { t with mods := fun i => if i ∈ l then
        { t.mods i with returnQuantTensor := (t.mods i).returnQuantTensor.map fun b => (saved i).getD b } else t.mods i } =
        { s with mods := fun i => if i ∈ l then
        { t.mods i with returnQuantTensor := (t.mods i).returnQuantTensor.map fun b => (saved i).getD b } else t.mods i } := by
      intro t ht
      rw [ht]
    rw [hrest]
    · congr 1
      funext i
      rw [key]
      by_cases hi : i = a
      · subst hi
        by_cases hl : i ∈ l
        · simp only [hl, if_true, List.mem_cons, true_or]
          rcases (s.mods i).returnQuantTensor with _ | v
          · simp
          · rcases saved i with _ | b <;> simp
        · simp [hl]
      · simp [hi]
    · unfold restoreStep
      by_cases hb : (s.mods a).returnQuantTensor.isSome
      · rw [if_pos hb]
        rcases saved a with _ | b <;> rfl
      · rw [if_neg hb]

theorem restoreReturn_eq (n : Net) (saved : ℕ → Option Bool) (s : State H C) :
    restoreReturn n saved s =
    { s with mods := fun i => if In n i then
        { s.mods i with returnQuantTensor := (s.mods i).returnQuantTensor.map fun b => (saved i).getD b } else s.mods i } := by
  unfold restoreReturn
  rw [restore_aux]
  rfl

/-- What leaving does to the flags of a module. -/
def left (cqw : Bool) (m : Attrs H) : Attrs H :=
  let m := overrideCaching .act false false (overrideCaching .bias false false m)
  if cqw then overrideCaching .weight false false m else m

/-- What leaving does to a module. -/
def leave (n : Net) (ctx : Ctx) (i : ℕ) (m : Attrs H) : Attrs H :=
  let m := left ctx.cacheQuantWeight m
  let m := if Covered n i then off m else m
  { m with returnQuantTensor := m.returnQuantTensor.map fun b => (ctx.saved i).getD b }

theorem exit_eq (n : Net) (w : World H C) (c : ℕ) (s : State H C) :
    exit n w c s = { s with mods := fun i => if In n i then leave n (s.ctxs c) i (s.mods i) else s.mods i } := by
  unfold exit
  simp only [applyAll_override]
  by_cases hq : (s.ctxs c).cacheQuantWeight = true
  · simp only [hq, if_true, modes_off, restoreReturn_eq]
    congr 1
    funext i
    by_cases hi : In n i
    · simp [hi, leave, left, hq]
    · simp [hi, Covered]
  · simp only [hq, Bool.false_eq_true, if_false, modes_off, restoreReturn_eq]
    congr 1
    funext i
    by_cases hi : In n i
    · simp [hi, leave, left, hq]
    · simp [hi, Covered]

/-! ### The hook -/

/-- The last step of the hook. -/
def switch (n : Net) (c : ℕ) (t : State H C) : State H C :=
  { t with
    mods := fun i => if In n i then { t.mods i with returnQuantTensor := (t.mods i).returnQuantTensor.map fun _ => false } else t.mods i,
    ctxs := Function.update t.ctxs c { t.ctxs c with saved := fun i => if In n i then (t.mods i).returnQuantTensor else none } }

/-- The hook has been removed. -/
def unhook (h : ℕ) (s : State H C) : State H C := { s with hooks := s.hooks.filter fun p => p.1 ≠ h }

theorem same_handlers (n : Net) (w : World H C) (s : State H C) : Same n s (loop (setExportHandler n w) n.tree.applyOrder s).1 :=
  loop_keeps (Same.refl n) (fun _ _ _ => Same.trans) (fun i hi s => same_handler n w i (mem_applyOrder.mp hi) s) s

theorem hook_cases (n : Net) (w : World H C) (c h : ℕ) (s : State H C) (hl : (s.ctxs c).hookList = [h]) :
    (∃ e t, hook n w c s = (t, some e) ∧ Same n (unhook h s) t) ∨
    (∃ u t, hook n w c s = (switch n c t, none) ∧ loop (setExportHandler n w) n.tree.applyOrder (unhook h s) = (u, none) ∧
      setExportModes n w true u = (t, none) ∧ Same n (unhook h s) t) := by
  have h1 := same_handlers n w (unhook h s)
  have hdef : hook n w c s = (match loop (setExportHandler n w) n.tree.applyOrder (unhook h s) with
    | (s, some e) => (s, some e)
    | (s, none) =>
      match setExportModes n w true s with
      | (s, some e) => (s, some e)
      | (s, none) =>
        let r := disableReturn n s
        ({ r.2 with ctxs := Function.update r.2.ctxs c { r.2.ctxs c with saved := r.1 } }, none)) := by
    unfold hook
    rw [hl]
    rfl
  rw [hdef]
  rcases hu : loop (setExportHandler n w) n.tree.applyOrder (unhook h s) with ⟨u, o⟩
  rw [hu] at h1
  cases o with
  | some e => exact Or.inl ⟨e, u, rfl, h1⟩
  | none =>
    have h2 := same_exportModes n w true u
    simp only
    rcases ht : setExportModes n w true u with ⟨t, o⟩
    rw [ht] at h2
    cases o with
    | some e => exact Or.inl ⟨e, t, rfl, h1.trans h2⟩
    | none =>
      refine Or.inr ⟨u, t, ?_, rfl, ht, h1.trans h2⟩
      simp only [disableReturn_eq]
      rfl

/-! ### Phases of a session -/

/-- Before the hook, after it failed, after it went through. -/
inductive Phase (n : Net) (c : ℕ) (s1 : State H C) : State H C → Prop
  | waiting (x : C) : Phase n c s1 { s1 with caches := x }
  | failed (t : State H C) (h : Same n { s1 with hooks := [] } t) : Phase n c s1 t
  | switched (u : State H C) (x : C) (h : Same n { s1 with hooks := [] } u) : Phase n c s1 { switch n c u with caches := x }

theorem call_nohook (n : Net) (w : World H C) (t : State H C) (ht : t.hooks = []) :
    (call n w t).1 = { t with caches := (w.forward t).1 } ∧ ((w.forward t).2 = true → (call n w t).2 = none) := by
  unfold call
  rw [ht]
  dsimp only
  by_cases hf : (w.forward t).2 = true
  · rw [if_pos hf]; exact ⟨by simp [loop], by simp [loop]⟩
  · rw [if_neg hf]; exact ⟨rfl, fun h => absurd h hf⟩

theorem switch_same {n : Net} {c : ℕ} {u : State H C} {s1 : State H C} (h : Same n { s1 with hooks := [] } u) : (switch n c u).hooks = [] := h.hooks

theorem loop_one {S A : Type*} (body : A → S → S × Option Err) (a : A) (s : S) : loop body [a] s = body a s := by
  unfold loop
  rcases body a s with ⟨s', o⟩
  cases o <;> rfl

theorem call_hook (n : Net) (w : World H C) (c h : ℕ) (t : State H C) (ht : t.hooks = [(h, c)]) (hf : (w.forward t).2 = true) :
    call n w t = hook n w c { t with caches := (w.forward t).1 } := by
  unfold call
  rw [if_pos hf, ht, loop_one]

theorem unhook_one (h c : ℕ) (t : State H C) (ht : t.hooks = [(h, c)]) : unhook h t = { t with hooks := [] } := by
  unfold unhook
  rw [ht]
  simp

theorem call_phase {n : Net} {c h : ℕ} {s1 t : State H C} (hh : s1.hooks = [(h, c)]) (hc : (s1.ctxs c).hookList = [h]) (w : World H C)
    (ht : Phase n c s1 t) : Phase n c s1 (call n w t).1 := by
  cases ht with
  | waiting x =>
    by_cases hf : (w.forward { s1 with caches := x }).2 = true
    · rw [call_hook n w c h { s1 with caches := x } hh hf]
      have hs : ∀ y, Same n { s1 with hooks := [] } (unhook h { s1 with caches := y }) := by
        intro y
        rw [unhook_one h c { s1 with caches := y } hh]
        exact same_caches n { s1 with hooks := [] } y
      rcases hook_cases n w c h { s1 with caches := (w.forward { s1 with caches := x }).1 } hc with ⟨e, t, he, hst⟩ | ⟨u, t, he, _, _, hst⟩
      · rw [he]
        exact .failed t ((hs _).trans hst)
      · rw [he]
        exact .switched t t.caches ((hs _).trans hst)
    · have : (call n w { s1 with caches := x }).1 = { s1 with caches := (w.forward { s1 with caches := x }).1 } := by
        unfold call
        rw [if_neg hf]
      rw [this]
      exact .waiting _
  | failed t h' =>
    rw [(call_nohook n w t h'.hooks).1]
    exact .failed _ (h'.trans (same_caches n t _))
  | switched u x h' =>
    rw [(call_nohook n w { switch n c u with caches := x } h'.hooks).1]
    exact .switched u _ h'

theorem calls_phase {n : Net} {c h : ℕ} {s1 t : State H C} (hh : s1.hooks = [(h, c)]) (hc : (s1.ctxs c).hookList = [h]) (ws : List (World H C))
    (ht : Phase n c s1 t) : Phase n c s1 (calls n ws t) := by
  unfold calls
  induction ws generalizing t with
  | nil => exact ht
  | cons w ws ih => exact ih (call_phase hh hc w ht)

theorem calls_append (n : Net) (us vs : List (World H C)) (s : State H C) : calls n (us ++ vs) s = calls n vs (calls n us s) := by
  unfold calls; rw [List.foldl_append]

theorem calls_cons (n : Net) (w : World H C) (ws : List (World H C)) (s : State H C) : calls n (w :: ws) s = calls n ws (call n w s).1 := rfl

theorem calls_nohook (n : Net) (ws : List (World H C)) (t : State H C) (ht : t.hooks = []) :
    calls n ws t = { t with caches := (calls n ws t).caches } := by
  induction ws generalizing t with
  | nil => rfl
  | cons w ws ih =>
    rw [calls_cons]
    have h1 := (call_nohook n w t ht).1
    have := ih (call n w t).1 (by rw [h1]; exact ht)
    rw [h1] at this ⊢
    exact this

/-- A completed forward pass removes the hook. -/
theorem call_unhooks {n : Net} {c h : ℕ} {s1 t : State H C} (hh : s1.hooks = [(h, c)]) (hc : (s1.ctxs c).hookList = [h]) (w : World H C)
    (ht : Phase n c s1 t) (hf : (w.forward t).2 = true) : (call n w t).1.hooks = [] := by
  cases ht with
  | waiting x =>
    rw [call_hook n w c h { s1 with caches := x } hh hf]
    rcases hook_cases n w c h { s1 with caches := (w.forward { s1 with caches := x }).1 } hc with ⟨e, t, he, hst⟩ | ⟨u, t, he, _, _, hst⟩
    · rw [he]
      rw [unhook_one h c { s1 with caches := (w.forward { s1 with caches := x }).1 } hh] at hst
      exact hst.hooks
    · rw [he]
      rw [unhook_one h c { s1 with caches := (w.forward { s1 with caches := x }).1 } hh] at hst
      exact hst.hooks
  | failed t h' => rw [(call_nohook n w t h'.hooks).1]; exact h'.hooks
  | switched u x h' => rw [(call_nohook n w { switch n c u with caches := x } h'.hooks).1]; exact h'.hooks

/-! ### What a session leaves -/

theorem entered_rest (q : Bool) (m : Attrs H) : (entered q m).training = m.training ∧ (entered q m).exportMode = m.exportMode ∧
    (entered q m).handler = m.handler ∧ (entered q m).returnQuantTensor = m.returnQuantTensor := by
  unfold entered
  simp only [override_rest, and_self]

theorem left_rest (q : Bool) (m : Attrs H) : (left q m).training = m.training ∧ (left q m).exportMode = m.exportMode ∧
    (left q m).handler = m.handler ∧ (left q m).returnQuantTensor = m.returnQuantTensor := by
  unfold left
  dsimp only
  by_cases hq : q = true
  · rw [if_pos hq]; simp only [override_rest, and_self]
  · rw [if_neg hq]; simp only [override_rest, and_self]

theorem entered_caching (q : Bool) (m : Attrs H) (f : Flag) : (entered q m).caching f = (m.caching f).map fun _ => true := by
  unfold entered
  cases f <;> simp [override_caching]

theorem left_caching (q : Bool) (m : Attrs H) (f : Flag) :
    (left q m).caching f = if f = .weight ∧ q = false then m.caching f else (m.caching f).map fun _ => false := by
  unfold left
  cases q <;> cases f <;> simp [override_caching]

theorem leave_rest (n : Net) (ctx : Ctx) (i : ℕ) (m : Attrs H) :
    (leave n ctx i m).training = m.training ∧ (leave n ctx i m).returnQuantTensor = (m.returnQuantTensor.map fun b => (ctx.saved i).getD b) ∧
    (leave n ctx i m).handler = (if Covered n i then none else m.handler) ∧
    (leave n ctx i m).exportMode = (if Covered n i then false else m.exportMode) ∧
    (leave n ctx i m).caching = (left ctx.cacheQuantWeight m).caching := by
  have h := left_rest ctx.cacheQuantWeight m
  unfold leave
  by_cases hc : Covered n i
  · simp [hc, off, h]
  · simp [hc, h]

/-! ### A hook that goes through -/

theorem handlers_ok {n : Net} {w : World H C} {s u : State H C} (h : loop (setExportHandler n w) n.tree.applyOrder s = (u, none)) (i : ℕ)
    (hi : Covered n i) :
    (u.mods i).handler = ((s.mods i).handler).or (w.handlerFor i) ∧
    ((n.info i).required = true → ((s.mods i).handler).isSome ∨ (w.handlerFor i).isSome) := by
  have h1 : (u.mods i).handler = (s.mods i).handler ∨ ((s.mods i).handler = none ∧ (u.mods i).handler = w.handlerFor i) := by
    refine loop_ok_keeps (Q := fun t => (t.mods i).handler = (s.mods i).handler ∨
      ((s.mods i).handler = none ∧ (t.mods i).handler = w.handlerFor i)) ?_ h (Or.inl rfl)
    intro b t t' hb ht
    unfold setExportHandler at hb
    by_cases hg : ((n.info b).kind = .proxy ∨ (n.info b).kind = .recurrent) ∧ (n.info b).exportable ∧ (t.mods b).handler.isNone
    · rw [if_pos hg] at hb
      rcases hw : w.handlerFor b with _ | x
      · rw [hw] at hb
        dsimp only at hb
        by_cases hr : (n.info b).required = true
        · rw [if_pos hr] at hb; simp at hb
        · rw [if_neg hr] at hb
          simp only [Prod.mk.injEq, and_true] at hb
          rw [← hb]; exact ht
      · rw [hw] at hb
        simp only [Prod.mk.injEq, and_true] at hb
        rw [← hb]
        by_cases hib : i = b
        · subst hib
          have hn : (t.mods i).handler = none := by simpa using hg.2.2
          refine Or.inr ⟨?_, by simp [setMod, hw]⟩
          rcases ht with ht | ht
          · rw [← ht]; exact hn
          · exact ht.1
        · simpa [setMod, hib] using ht
    · rw [if_neg hg] at hb
      simp only [Prod.mk.injEq, and_true] at hb
      rw [← hb]; exact ht
  have h2 : (u.mods i).handler.isSome ∨ ((u.mods i).handler = none ∧ w.handlerFor i = none ∧ (n.info i).required = false) := by
    refine loop_ok (Q := fun a t => a = i → (t.mods i).handler.isSome ∨
      ((t.mods i).handler = none ∧ w.handlerFor i = none ∧ (n.info i).required = false)) ?_ ?_ h i (mem_applyOrder.mpr hi.1) rfl
    · intro a ha t t' hb hai
      subst hai
      unfold setExportHandler at hb
      by_cases hg : ((n.info a).kind = .proxy ∨ (n.info a).kind = .recurrent) ∧ (n.info a).exportable ∧ (t.mods a).handler.isNone
      · rw [if_pos hg] at hb
        rcases hw : w.handlerFor a with _ | x
        · rw [hw] at hb
          dsimp only at hb
          by_cases hr : (n.info a).required = true
          · rw [if_pos hr] at hb; simp at hb
          · rw [if_neg hr] at hb
            simp only [Prod.mk.injEq, and_true] at hb
            rw [← hb]
            exact Or.inr ⟨by simpa using hg.2.2, rfl, by simpa using hr⟩
        · rw [hw] at hb
          simp only [Prod.mk.injEq, and_true] at hb
          rw [← hb]
          exact Or.inl (by simp [setMod])
      · rw [if_neg hg] at hb
        simp only [Prod.mk.injEq, and_true] at hb
        rw [← hb]
        left
        by_contra hno
        exact hg ⟨hi.2.1, hi.2.2, by simpa using hno⟩
    · intro a ha b t t' hb hq hai
      have hq := hq hai
      subst hai
      unfold setExportHandler at hb
      by_cases hg : ((n.info b).kind = .proxy ∨ (n.info b).kind = .recurrent) ∧ (n.info b).exportable ∧ (t.mods b).handler.isNone
      · rw [if_pos hg] at hb
        rcases hw : w.handlerFor b with _ | x
        · rw [hw] at hb
          dsimp only at hb
          by_cases hr : (n.info b).required = true
          · rw [if_pos hr] at hb; simp at hb
          · rw [if_neg hr] at hb
            simp only [Prod.mk.injEq, and_true] at hb
            rw [← hb]; exact hq
        · rw [hw] at hb
          simp only [Prod.mk.injEq, and_true] at hb
          rw [← hb]
          by_cases hab : a = b
          · subst hab; exact Or.inl (by simp [setMod])
          · simpa [setMod, hab] using hq
      · rw [if_neg hg] at hb
        simp only [Prod.mk.injEq, and_true] at hb
        rw [← hb]; exact hq
  rcases hs : (s.mods i).handler with _ | y
  · rw [hs] at h1
    rcases h2 with h2 | ⟨h2, h3, h4⟩
    · rcases h1 with h1 | ⟨-, h1⟩
      · rw [h1] at h2; simp at h2
      · refine ⟨by simpa using h1, fun _ => Or.inr ?_⟩
        rw [← h1]; exact h2
    · refine ⟨by rw [h2, h3]; rfl, fun hr => ?_⟩
      rw [h4] at hr; simp at hr
  · rw [hs] at h1
    refine ⟨?_, fun _ => Or.inl (by simp)⟩
    rcases h1 with h1 | ⟨h1, -⟩
    · simpa using h1
    · simp at h1

/-- What a successful `export_mode = True` shows. -/
def On (n : Net) (w : World H C) (i : ℕ) (t : State H C) : Prop :=
  w.jitEnabled = false ∧ (t.mods i).training = false ∧
    (((t.mods i).exportMode = true ∧ (t.mods i).handler.isSome) ∨ ((n.info i).required = false ∧ (t.mods i).handler = none))

theorem mode_on {n : Net} {w : World H C} {i : ℕ} {s t : State H C} (h : setExportMode n w true i s = (t, none)) :
    On n w i t ∧ (∀ j, On n w j s → On n w j t) ∧ ∀ j, (t.mods j).handler = (s.mods j).handler := by
  unfold setExportMode at h
  simp only [Bool.true_and] at h
  by_cases h1 : w.jitEnabled = true
  · rw [if_pos h1] at h; simp at h
  rw [if_neg h1] at h
  have h1' : w.jitEnabled = false := by simpa using h1
  by_cases h2 : (s.mods i).training = true
  · rw [if_pos h2] at h; simp at h
  rw [if_neg h2] at h
  have h2' : (s.mods i).training = false := by simpa using h2
  rcases hh : (s.mods i).handler with _ | x
  · simp only [hh, Option.isNone_none, Bool.and_true] at h
    by_cases h3 : (n.info i).required = true
    · rw [if_pos h3] at h; simp at h
    have h3' : (n.info i).required = false := by simpa using h3
    rw [if_neg h3, if_pos (by simp [h3'])] at h
    simp only [Prod.mk.injEq, and_true] at h
    rw [← h]
    exact ⟨⟨h1', h2', Or.inr ⟨h3', hh⟩⟩, fun _ hj => hj, fun _ => rfl⟩
  · simp only [hh, Option.isNone_some, Bool.and_false, Bool.false_eq_true, if_false, Option.isSome_some, Bool.and_true, Bool.not_true] at h
    have key : ∀ z : C, On n w i (setMod i (fun m => { m with exportMode := true }) { s with caches := z }) ∧
        (∀ j, On n w j s → On n w j (setMod i (fun m => { m with exportMode := true }) { s with caches := z })) ∧
        ∀ j, ((setMod i (fun m => { m with exportMode := true }) { s with caches := z }).mods j).handler = (s.mods j).handler := by
      intro z
      refine ⟨⟨h1', by simpa [setMod] using h2', Or.inl (by simp [setMod, hh])⟩, ?_, ?_⟩
      · intro j hj
        by_cases hij : j = i
        · subst hij
          exact ⟨h1', by simpa [setMod] using h2', Or.inl (by simp [setMod, hh])⟩
        · simpa [On, setMod, hij] using hj
      · intro j
        by_cases hij : j = i
        · subst hij; simp [setMod]
        · simp [setMod, hij]
    by_cases h4 : (!(s.mods i).exportMode) = true
    · rw [if_pos h4] at h
      by_cases h5 : (w.prepare s i).2 = true
      · rw [if_pos h5] at h
        simp only [Prod.mk.injEq, and_true] at h
        rw [← h]; exact key _
      · rw [if_neg h5] at h; simp at h
    · rw [if_neg h4] at h
      simp only [Prod.mk.injEq, and_true] at h
      rw [← h]; exact key s.caches

theorem modes_ok {n : Net} {w : World H C} {k : Kind} {s t : State H C} (h : setModes n w true k s = (t, none)) :
    (∀ i, In n i → (n.info i).kind = k → (n.info i).exportable = true → On n w i t) ∧ (∀ j, On n w j s → On n w j t) ∧
    ∀ j, (t.mods j).handler = (s.mods j).handler := by
  unfold setModes at h
  refine ⟨?_, ?_, ?_⟩
  · intro i hi hk he
    refine loop_ok (Q := fun i t => (n.info i).kind = k → (n.info i).exportable = true → On n w i t) ?_ ?_ h i hi hk he
    · intro a ha u u' hb hk he
      rw [if_pos ⟨hk, he⟩] at hb
      exact (mode_on hb).1
    · intro a ha b u u' hb hq hk he
      split_ifs at hb with hg
      · exact (mode_on hb).2.1 a (hq hk he)
      · simp only [Prod.mk.injEq, and_true] at hb
        rw [← hb]; exact hq hk he
  · intro j
    refine loop_ok_keeps (Q := fun u => On n w j u) ?_ h
    intro b u u' hb hq
    split_ifs at hb with hg
    · exact (mode_on hb).2.1 j hq
    · simp only [Prod.mk.injEq, and_true] at hb
      rw [← hb]; exact hq
  · intro j
    refine loop_ok_keeps (Q := fun u => (u.mods j).handler = (s.mods j).handler) ?_ h rfl
    intro b u u' hb hq
    split_ifs at hb with hg
    · exact ((mode_on hb).2.2 j).trans hq
    · simp only [Prod.mk.injEq, and_true] at hb
      rw [← hb]; exact hq

theorem exportModes_ok {n : Net} {w : World H C} {s t : State H C} (h : setExportModes n w true s = (t, none)) :
    (∀ i, Covered n i → On n w i t) ∧ ∀ j, (t.mods j).handler = (s.mods j).handler := by
  unfold setExportModes at h
  rcases h1 : setModes n w true .proxy s with ⟨u, o⟩
  rw [h1] at h
  cases o with
  | some e => simp at h
  | none =>
    simp only at h
    have a := modes_ok h1
    have b := modes_ok h
    refine ⟨fun i hi => ?_, fun j => (b.2.2 j).trans (a.2.2 j)⟩
    rcases hi.2.1 with hk | hk
    · exact b.2.1 i (a.1 i hi.1 hk hi.2.2)
    · exact b.1 i hi.1 hk hi.2.2

end Brevitas.InferMode
