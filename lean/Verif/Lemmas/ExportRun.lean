import Verif.Model.ExportRun
import Mathlib.Data.List.Dedup
import Mathlib.Tactic.Common

/-!
# Lemmas about exports
-/

namespace Brevitas.ExportRun

open Prog

variable {H C T : Type*}

namespace Prog

variable {S A B : Type*}

theorem andThen_ok {p : Prog S A} {q : A → Prog S B} {s s' : S} {b : B} :
    (p.andThen q) s = (s', .ok b) ↔ ∃ s₁ a, p s = (s₁, .ok a) ∧ q a s₁ = (s', .ok b) := by
  unfold andThen
  rcases h : p s with ⟨s₁, (e | a)⟩ <;> simp

theorem andThen_error {p : Prog S A} {q : A → Prog S B} {s s' : S} {e : Err} :
    (p.andThen q) s = (s', .error e) ↔ p s = (s', .error e) ∨ ∃ s₁ a, p s = (s₁, .ok a) ∧ q a s₁ = (s', .error e) := by
  unfold andThen
  rcases h : p s with ⟨s₁, (e | a)⟩ <;> simp

theorem andThen_assoc {D : Type*} (p : Prog S A) (q : A → Prog S B) (r : B → Prog S D) :
    (p.andThen q).andThen r = p.andThen fun a => (q a).andThen r := by
  funext s
  unfold andThen
  rcases h : p s with ⟨s₁, (e | a)⟩ <;> simp

/-- Whatever the outcome, the states before and after are related. -/
def Keeps (R : S → S → Prop) (p : Prog S A) : Prop := ∀ s, R s (p s).1

theorem keeps_ret {R : S → S → Prop} (hr : ∀ s, R s s) (a : A) : Keeps R (ret a) := fun s => hr s

theorem keeps_andThen {R : S → S → Prop} (ht : ∀ a b c, R a b → R b c → R a c) {p : Prog S A} {q : A → Prog S B} (hp : Keeps R p)
    (hq : ∀ a, Keeps R (q a)) : Keeps R (p.andThen q) := by
  intro s
  unfold andThen
  have h1 := hp s
  rcases h : p s with ⟨s₁, (e | a)⟩ <;> rw [h] at h1
  · exact h1
  · exact ht _ _ _ h1 (hq a s₁)

theorem keeps_forEach {R : S → S → Prop} (hr : ∀ s, R s s) (ht : ∀ a b c, R a b → R b c → R a c) {body : ℕ → Prog S Unit}
    {l : List ℕ} (h : ∀ i ∈ l, Keeps R (body i)) : Keeps R (forEach l body) := by
  induction l with
  | nil => exact keeps_ret hr ()
  | cons i is ih =>
    exact keeps_andThen ht (h i (by simp)) fun _ => ih fun j hj => h j (by simp [hj])

/-- A program that never raises a certain exception. -/
def Never (e : Err) (p : Prog S A) : Prop := ∀ s s', p s ≠ (s', .error e)

theorem never_ret {e : Err} (a : A) : Never e (ret a : Prog S A) := by
  intro s s' h; simp [ret] at h

theorem never_assign {e : Err} (f : S → S) : Never e (assign f) := by
  intro s s' h; simp [assign] at h

theorem never_andThen {e : Err} {p : Prog S A} {q : A → Prog S B} (hp : Never e p) (hq : ∀ a, Never e (q a)) :
    Never e (p.andThen q) := by
  intro s s' h
  rcases andThen_error.mp h with h | ⟨s₁, a, _, h⟩
  · exact hp _ _ h
  · exact hq _ _ _ h

theorem never_forEach {e : Err} {body : ℕ → Prog S Unit} {l : List ℕ} (h : ∀ i, Never e (body i)) : Never e (forEach l body) := by
  induction l with
  | nil => exact never_ret ()
  | cons i is ih => exact never_andThen (h i) fun _ => ih

end Prog

/-! ### Orders -/

namespace Tree

mutual
theorem mem_apply_iff (t : Tree) (j : ℕ) : j ∈ t.applyOrder ↔ j ∈ t.trainOrder := by
  cases t with
  | node i cs =>
    simp only [applyOrder, trainOrder, List.mem_append, List.mem_cons, List.mem_nil_iff, or_false]
    rw [mem_applys_iff cs j]
    exact or_comm
theorem mem_applys_iff (ts : List Tree) (j : ℕ) : j ∈ applyOrders ts ↔ j ∈ trainOrders ts := by
  cases ts with
  | nil => simp [applyOrders, trainOrders]
  | cons t ts => simp only [applyOrders, trainOrders, List.mem_append]; rw [mem_apply_iff t j, mem_applys_iff ts j]
end

theorem mem_modules_iff (t : Tree) (j : ℕ) : j ∈ t.modules ↔ j ∈ t.trainOrder := by simp [modules]

theorem root_mem (t : Tree) : t.root ∈ t.trainOrder := by cases t; simp [root, trainOrder]

end Tree

/-! ### Loops that succeed -/

/-- A loop body that, if it succeeds, changes the attributes of its module by `g` and nothing else but caches. -/
def ActsAs (f : ℕ → Prog (State H C) Unit) (g : ℕ → Attrs H → Attrs H) : Prop :=
  ∀ i s s', f i s = (s', .ok ()) →
    s'.mods = Function.update s.mods i (g i (s.mods i)) ∧ s'.grads = s.grads ∧ s'.ongoing = s.ongoing

/-- A program that, if it succeeds, changes the attributes of the modules in `l` by `g` and nothing else but caches. -/
def Maps (p : Prog (State H C) Unit) (l : List ℕ) (g : ℕ → Attrs H → Attrs H) : Prop :=
  ∀ s s', p s = (s', .ok ()) →
    (∀ j, s'.mods j = if j ∈ l then g j (s.mods j) else s.mods j) ∧ s'.grads = s.grads ∧ s'.ongoing = s.ongoing

theorem maps_forEach {f : ℕ → Prog (State H C) Unit} {g : ℕ → Attrs H → Attrs H} (h : ActsAs f g)
    (idem : ∀ i a, g i (g i a) = g i a) (l : List ℕ) : Maps (forEach l f) l g := by
  induction l with
  | nil =>
    intro s s' hs
    simp only [forEach, ret, Prod.mk.injEq, and_true] at hs
    subst hs
    simp
  | cons i is ih =>
    intro s s' hs
    rw [forEach, andThen_ok] at hs
    obtain ⟨s₁, _, h1, h2⟩ := hs
    obtain ⟨a1, a2, a3⟩ := h i s s₁ h1
    obtain ⟨b1, b2, b3⟩ := ih s₁ s' h2
    refine ⟨fun j => ?_, b2.trans a2, b3.trans a3⟩
    rw [b1 j, a1]
    by_cases hj : j = i
    · subst hj
      by_cases hji : j ∈ is <;> simp [hji, idem]
    · simp [hj]

theorem Maps.mono {p : Prog (State H C) Unit} {l l' : List ℕ} {g : ℕ → Attrs H → Attrs H} (h : Maps p l g)
    (hl : ∀ j, j ∈ l ↔ j ∈ l') : Maps p l' g := by
  intro s s' hs
  obtain ⟨h1, h2, h3⟩ := h s s' hs
  refine ⟨fun j => ?_, h2, h3⟩
  rw [h1 j]
  by_cases hj : j ∈ l
  · rw [if_pos hj, if_pos ((hl j).mp hj)]
  · rw [if_neg hj, if_neg (fun h => hj ((hl j).mpr h))]

theorem Maps.andThen {p q : Prog (State H C) Unit} {l : List ℕ} {g g' : ℕ → Attrs H → Attrs H} (hp : Maps p l g) (hq : Maps q l g') :
    Maps (p.andThen fun _ => q) l (fun j a => g' j (g j a)) := by
  intro s s' hs
  rw [andThen_ok] at hs
  obtain ⟨s₁, _, h1, h2⟩ := hs
  obtain ⟨a1, a2, a3⟩ := hp _ _ h1
  obtain ⟨b1, b2, b3⟩ := hq _ _ h2
  refine ⟨fun j => ?_, b2.trans a2, b3.trans a3⟩
  rw [b1, a1]
  by_cases hj : j ∈ l <;> simp [hj]

theorem Maps.congr {p : Prog (State H C) Unit} {l : List ℕ} {g g' : ℕ → Attrs H → Attrs H} (h : Maps p l g)
    (e : ∀ j a, g j a = g' j a) : Maps p l g' := by
  have : g = g' := funext fun j => funext fun a => e j a
  exact this ▸ h

theorem actsAs_setMod (f : Attrs H → Attrs H) : ActsAs (C := C) (fun i => setMod i f) fun _ => f := by
  intro i s s' h
  simp only [setMod, assign, Prod.mk.injEq, and_true] at h
  subst h
  exact ⟨rfl, rfl, rfl⟩

theorem maps_train (n : Net) (b : Bool) :
    Maps (train (H := H) (C := C) n b) n.tree.trainOrder fun _ m => { m with training := b } :=
  maps_forEach (actsAs_setMod fun m : Attrs H => { m with training := b }) (fun _ _ => rfl) _

theorem maps_applyAll (n : Net) (f : Attrs H → Attrs H) (hf : ∀ a, f (f a) = f a) :
    Maps (applyAll (C := C) n f) n.tree.trainOrder fun _ => f :=
  (maps_forEach (actsAs_setMod f) (fun _ => hf) _).mono fun j => n.tree.mem_apply_iff j

/-- The value a caching flag will be given back: the backup, if there is one. -/
def eff (m : Attrs H) (f : Flag) : Option Bool :=
  match m.backup f with
  | some v => some v
  | none => m.flag f

theorem override_idem (f : Flag) (b : Bool) (m : Attrs H) : overrideFlag f b (overrideFlag f b m) = overrideFlag f b m := by
  unfold overrideFlag
  rcases h1 : m.flag f with _ | v <;> rcases h2 : m.backup f with _ | u <;> simp [h1, h2]

theorem restore_idem (f : Flag) (m : Attrs H) : restoreFlag f (restoreFlag f m) = restoreFlag f m := by
  unfold restoreFlag
  rcases h2 : m.backup f with _ | u <;> simp [h2]

theorem eff_override (f : Flag) (b : Bool) (m : Attrs H) : eff (overrideFlag f b m) = eff m := by
  funext g
  unfold overrideFlag eff
  rcases h1 : m.flag f with _ | v <;> rcases h2 : m.backup f with _ | u <;> simp [h2]
  by_cases hg : g = f
  · subst hg; simp [h1, h2]
  · simp [hg]

theorem eff_restore (f : Flag) (m : Attrs H) : eff (restoreFlag f m) = eff m := by
  funext g
  unfold restoreFlag eff
  rcases h2 : m.backup f with _ | u <;> simp
  by_cases hg : g = f
  · subst hg; simp [h2]
  · simp [hg]

theorem backup_restore (f g : Flag) (m : Attrs H) : (restoreFlag f m).backup g = if g = f then none else m.backup g := by
  unfold restoreFlag
  rcases h : m.backup f with _ | u
  · by_cases hg : g = f
    · subst hg; simp [h]
    · simp [hg]
  · by_cases hg : g = f
    · subst hg; simp
    · simp [hg]

/-- What a dummy forward pass leaves of the caching flags of a module. -/
def settled (m : Attrs H) : Attrs H := { m with flag := eff m, backup := fun _ => none }

theorem settle (m : Attrs H) :
    restoreFlag .act (restoreFlag .bias (restoreFlag .io (overrideFlag .act true (overrideFlag .bias true (overrideFlag .io true m))))) =
      settled m := by
  set r := restoreFlag .act (restoreFlag .bias (restoreFlag .io (overrideFlag .act true (overrideFlag .bias true (overrideFlag .io true m)))))
    with hr
  have h1 : eff r = eff m := by simp only [hr, eff_restore, eff_override]
  have hb : r.backup = fun _ => none := by
    funext f
    rw [hr]
    cases f <;> simp [backup_restore]
  have hf : r.flag = eff m := by
    rw [← h1]; funext f; simp [eff, hb]
  have ht : r.training = m.training ∧ r.exportMode = m.exportMode ∧ r.handler = m.handler := by
    rw [hr]
    have o : ∀ f b (m : Attrs H), (overrideFlag f b m).training = m.training ∧ (overrideFlag f b m).exportMode = m.exportMode ∧
        (overrideFlag f b m).handler = m.handler := by
      intro f b m; unfold overrideFlag; split <;> simp
    have q : ∀ f (m : Attrs H), (restoreFlag f m).training = m.training ∧ (restoreFlag f m).exportMode = m.exportMode ∧
        (restoreFlag f m).handler = m.handler := by
      intro f m; unfold restoreFlag; split <;> simp
    simp only [(o _ _ _).1, (o _ _ _).2.1, (o _ _ _).2.2, (q _ _).1, (q _ _).2.1, (q _ _).2.2, and_self]
  rcases hrr : r with ⟨a, b, c, d, e⟩
  rw [hrr] at hb hf ht
  simp only at hb hf ht
  rw [settled, hb, hf, ht.1, ht.2.1, ht.2.2]

theorem maps_forward (w : World H C T) (l : List ℕ) : Maps (runForward w) l fun _ m => m := by
  intro s s' h
  unfold runForward at h
  simp only at h
  split at h
  · simp only [ret, Prod.mk.injEq, and_true] at h; subst h; simp
  · simp [raise] at h

theorem maps_cacheInpOut (n : Net) (w : World H C T) : Maps (cacheInpOut n w) n.tree.trainOrder fun _ => settled := by
  have o : ∀ f b, Maps (applyAll (C := C) n (overrideFlag (H := H) f b)) n.tree.trainOrder fun _ => overrideFlag f b :=
    fun f b => maps_applyAll n _ (override_idem f b)
  have r : ∀ f, Maps (applyAll (C := C) n (restoreFlag (H := H) f)) n.tree.trainOrder fun _ => restoreFlag f :=
    fun f => maps_applyAll n _ (restore_idem f)
  exact ((o .io true).andThen ((o .bias true).andThen ((o .act true).andThen ((maps_forward w _).andThen
    ((r .io).andThen ((r .bias).andThen (r .act))))))).congr fun _ m => settle m

/-- Whether the manager deals with a module. -/
def covered (n : Net) (M : Manager H) (i : ℕ) : Prop := (n.info i).kind ∈ M.kinds ∧ (n.info i).exportable = true

instance (n : Net) (M : Manager H) (i : ℕ) : Decidable (covered n M i) := by unfold covered; infer_instance

/-- The handler of a module after `set_export_handler`. -/
def withHandler (n : Net) (M : Manager H) (i : ℕ) (m : Attrs H) : Attrs H :=
  if covered n M i then { m with handler := m.handler.or (M.handlerFor i) } else m

theorem actsAs_handler (n : Net) (M : Manager H) : ActsAs (C := C) (setExportHandler n M) (withHandler n M) := by
  intro i s s' h
  unfold setExportHandler at h
  unfold withHandler
  by_cases hc : covered n M i
  · rw [if_pos hc]
    rcases hh : (s.mods i).handler with _ | hd
    · have : (decide ((n.info i).kind ∈ M.kinds) && (n.info i).exportable && (s.mods i).handler.isNone) = true := by
        simp [hc.1, hc.2, hh]
      rw [if_pos this] at h
      rcases hf : M.handlerFor i with _ | hd
      · rw [hf] at h
        simp only at h
        split at h
        · simp [raise] at h
        · simp only [ret, Prod.mk.injEq, and_true] at h; subst h
          refine ⟨?_, rfl, rfl⟩
          have : ({ s.mods i with handler := (none : Option H).or none } : Attrs H) = s.mods i := by
            rw [show (none : Option H).or none = none from rfl, ← hh]
          rw [this, Function.update_eq_self]
      · rw [hf] at h
        obtain ⟨a, b, c⟩ := actsAs_setMod _ i s s' h
        exact ⟨a, b, c⟩
    · have : ¬ (decide ((n.info i).kind ∈ M.kinds) && (n.info i).exportable && (s.mods i).handler.isNone) = true := by
        simp [hh]
      rw [if_neg this] at h
      simp only [ret, Prod.mk.injEq, and_true] at h; subst h
      refine ⟨?_, rfl, rfl⟩
      have : ({ s.mods i with handler := (some hd).or (M.handlerFor i) } : Attrs H) = s.mods i := by
        rw [show (some hd).or (M.handlerFor i) = some hd from rfl, ← hh]
      rw [this, Function.update_eq_self]
  · rw [if_neg hc]
    have : ¬ (decide ((n.info i).kind ∈ M.kinds) && (n.info i).exportable && (s.mods i).handler.isNone) = true := by
      intro h'
      simp only [Bool.and_eq_true, decide_eq_true_eq] at h'
      exact hc h'.1
    rw [if_neg this] at h
    simp only [ret, Prod.mk.injEq, and_true] at h; subst h
    exact ⟨(Function.update_eq_self _ _).symm, rfl, rfl⟩

theorem maps_handlers (n : Net) (M : Manager H) :
    Maps (C := C) (forEach n.tree.applyOrder (setExportHandler n M)) n.tree.trainOrder (withHandler n M) := by
  refine (maps_forEach (actsAs_handler n M) ?_ _).mono fun j => n.tree.mem_apply_iff j
  intro i a
  unfold withHandler
  split
  · rcases a.handler <;> rcases M.handlerFor i <;> simp
  · rfl

/-- Export mode of a module after `set_export_mode` has succeeded. -/
def modeSet (n : Net) (value : Bool) (ks : List Kind) (i : ℕ) (m : Attrs H) : Attrs H :=
  if (n.info i).kind ∈ ks ∧ (n.info i).exportable = true then
    if value then (if m.handler.isSome then { m with exportMode := true } else m)
    else { m with handler := none, exportMode := false }
  else m

theorem actsAs_mode (n : Net) (w : World H C T) (value : Bool) (k : Kind) :
    ActsAs (fun i => if (n.info i).kind = k && (n.info i).exportable then setExportMode n w value i else ret ())
      (modeSet n value [k]) := by
  intro i s s' h
  unfold modeSet
  simp only [List.mem_singleton]
  by_cases hc : (n.info i).kind = k ∧ (n.info i).exportable = true
  · have : (decide ((n.info i).kind = k) && (n.info i).exportable) = true := by simp [hc.1, hc.2]
    simp only [this, if_true] at h
    rw [if_pos hc]
    unfold setExportMode at h
    cases value
    · simp only [Bool.false_and, Bool.false_eq_true, if_false, Bool.not_false, Bool.true_and] at h
      simp only [Bool.false_eq_true, if_false]
      rcases hh : (s.mods i).handler with _ | hd
      · simp only [hh, Option.isSome_none, Bool.false_eq_true, if_false] at h
        obtain ⟨a, b, c⟩ := actsAs_setMod _ i s s' h
        refine ⟨a.trans ?_, b, c⟩
        congr 1
        rw [← hh]
      · simp only [hh, Option.isSome_some, if_true] at h
        exact actsAs_setMod _ i s s' h
    · simp only [Bool.true_and, Bool.not_true, Bool.false_and, Bool.false_eq_true, if_false] at h
      simp only [if_true]
      split at h
      · simp [raise] at h
      split at h
      · simp [raise] at h
      rcases hh : (s.mods i).handler with _ | hd
      · simp only [hh, Option.isNone_none, Bool.and_true] at h
        simp only [Option.isSome_none, Bool.false_eq_true, if_false]
        split at h
        · simp [raise] at h
        · split at h
          · simp only [ret, Prod.mk.injEq, and_true] at h; subst h
            exact ⟨(Function.update_eq_self _ _).symm, rfl, rfl⟩
          · rename_i h1 h2
            cases hr : (n.info i).required <;> simp [hr] at h1 h2
      · simp only [hh, Option.isNone_some, Bool.and_false, Bool.false_eq_true, if_false, Option.isSome_some, Bool.and_true] at h
        simp only [Option.isSome_some, if_true]
        split at h
        · split at h
          · obtain ⟨a, b, c⟩ := actsAs_setMod _ i _ s' h
            rw [← hh]
            exact ⟨a, b, c⟩
          · simp [raise] at h
        · rw [← hh]
          exact actsAs_setMod _ i s s' h
  · rw [if_neg hc]
    have : ¬ (decide ((n.info i).kind = k) && (n.info i).exportable) = true := by
      intro h'
      simp only [Bool.and_eq_true, decide_eq_true_eq] at h'
      exact hc h'
    simp only [this] at h
    simp only [ret, Prod.mk.injEq, and_true, Bool.false_eq_true, if_false] at h; subst h
    exact ⟨(Function.update_eq_self _ _).symm, rfl, rfl⟩

theorem modeSet_idem (n : Net) (value : Bool) (ks ks' : List Kind) (i : ℕ) (m : Attrs H) :
    modeSet n value ks (i := i) (modeSet n value ks' i m) = modeSet n value (ks' ++ ks) i m := by
  unfold modeSet
  simp only [List.mem_append]
  by_cases he : (n.info i).exportable = true <;> by_cases h1 : (n.info i).kind ∈ ks <;> by_cases h2 : (n.info i).kind ∈ ks' <;>
    cases value <;> rcases hh : m.handler <;> simp [he, h1, h2, hh]

theorem maps_modes (n : Net) (w : World H C T) (value : Bool) (ks : List Kind) :
    Maps (setExportModes n w value ks) n.tree.trainOrder (modeSet n value ks) := by
  induction ks with
  | nil =>
    intro s s' h
    simp only [setExportModes, ret, Prod.mk.injEq, and_true] at h
    subst h
    simp [modeSet]
  | cons k ks ih =>
    have h1 := ((maps_forEach (actsAs_mode n w value k) (fun i a => by
      rw [modeSet_idem]; unfold modeSet; simp) n.tree.modules).mono fun j => n.tree.mem_modules_iff j)
    exact (h1.andThen ih).congr fun j a => by rw [modeSet_idem]; rfl

/-! ### Gradients -/

theorem forEach_grads (l : List ℕ) (g : ℕ → Bool) (s s' : State H C)
    (h : forEach l (fun p => assign fun s => { s with grads := Function.update s.grads p (g p) }) s = (s', .ok ())) :
    s'.mods = s.mods ∧ s'.ongoing = s.ongoing ∧ s'.caches = s.caches ∧
      ∀ p, s'.grads p = if p ∈ l then g p else s.grads p := by
  induction l generalizing s with
  | nil =>
    simp only [forEach, ret, Prod.mk.injEq, and_true] at h
    subst h; simp
  | cons i is ih =>
    rw [forEach, andThen_ok] at h
    obtain ⟨s₁, _, h1, h2⟩ := h
    simp only [assign, Prod.mk.injEq, and_true] at h1
    subst h1
    obtain ⟨a, b, c, d⟩ := ih _ h2
    refine ⟨a, b, c, fun p => ?_⟩
    rw [d p]
    by_cases hp : p = i
    · subst hp; simp
    · simp [hp]

/-! ### The steps before tracing and after it -/

/-- The attributes of a module of the model once `set_export_mode` has succeeded. -/
def traced (n : Net) (M : Manager H) (i : ℕ) (m : Attrs H) : Attrs H :=
  modeSet n true M.kinds i (settled (withHandler n M i { m with training := false }))

theorem before_trace {n : Net} {M : Manager H} {w : World H C T} {s s1 s2 s3 s4 : State H C}
    (h1 : train n false s = (s1, .ok ())) (h2 : forEach n.tree.applyOrder (setExportHandler n M) s1 = (s2, .ok ()))
    (h3 : cacheInpOut n w s2 = (s3, .ok ())) (h4 : setExportModes n w true M.kinds s3 = (s4, .ok ())) :
    (∀ j, s4.mods j = if j ∈ n.tree.trainOrder then traced n M j (s.mods j) else s.mods j) ∧ s4.grads = s.grads ∧
      s4.ongoing = s.ongoing :=
  ((maps_train n false).andThen ((maps_handlers n M).andThen ((maps_cacheInpOut n w).andThen (maps_modes n w true M.kinds)))) s s4
    (andThen_ok.mpr ⟨s1, (), h1, andThen_ok.mpr ⟨s2, (), h2, andThen_ok.mpr ⟨s3, (), h3, h4⟩⟩⟩)

/-- The attributes of a module of the model after a successful export. -/
def exported (n : Net) (M : Manager H) (b : Bool) (i : ℕ) (m : Attrs H) : Attrs H :=
  { modeSet n false M.kinds i (traced n M i m) with training := b }

theorem after_trace {n : Net} {M : Manager H} {w : World H C T} {b : Bool} {s s1 s2 : State H C}
    (h1 : setExportModes n w false M.kinds s = (s1, .ok ())) (h2 : train n b s1 = (s2, .ok ())) :
    (∀ j, s2.mods j = if j ∈ n.tree.trainOrder then { modeSet n false M.kinds j (s.mods j) with training := b } else s.mods j) ∧
      s2.grads = s.grads ∧ s2.ongoing = s.ongoing :=
  ((maps_modes n w false M.kinds).andThen (maps_train n b)) s s2 (andThen_ok.mpr ⟨s1, (), h1, h2⟩)

theorem runTrace_ok {w : World H C T} {s s' : State H C} {t : T} (h : runTrace w s = (s', .ok t)) : s' = s ∧ w.trace s = some t := by
  unfold runTrace at h
  rcases hw : w.trace s with _ | u
  · simp [hw, raise] at h
  · simp only [hw, ret, Prod.mk.injEq, Except.ok.injEq] at h
    exact ⟨h.1.symm, by rw [h.2]⟩

theorem withContext_ok {A : Type*} {M : Manager H} {body : Prog (State H C) A} {s s' : State H C} {a : A}
    (h : withContext M body s = (s', .ok a)) :
    s.ongoing = none ∧ ∃ s₁, body { s with ongoing := some M.target } = (s₁, .ok a) ∧ s' = { s₁ with ongoing := none } := by
  unfold withContext at h
  rcases ho : s.ongoing with _ | o
  · simp only [ho, Option.isSome_none, Bool.false_eq_true, if_false, Prod.mk.injEq] at h
    exact ⟨rfl, _, Prod.ext rfl h.2, h.1.symm⟩
  · simp [ho, raise] at h

theorem withContext_error {A : Type*} {M : Manager H} {body : Prog (State H C) A} {s s' : State H C} {e : Err}
    (h : withContext M body s = (s', .error e)) (he : e ≠ .ongoing) :
    s.ongoing = none ∧ ∃ s₁, body { s with ongoing := some M.target } = (s₁, .error e) ∧ s' = { s₁ with ongoing := none } := by
  unfold withContext at h
  rcases ho : s.ongoing with _ | o
  · simp only [ho, Option.isSome_none, Bool.false_eq_true, if_false, Prod.mk.injEq] at h
    exact ⟨rfl, _, Prod.ext rfl h.2, h.1.symm⟩
  · simp only [ho, raise, Option.isSome_some, if_true, Prod.mk.injEq, Except.error.injEq] at h
    exact absurd h.2.symm he

/-- The state that is traced by a TorchScript export. -/
theorem torch_ok {n : Net} {M : Manager H} {w : World H C T} {s s' : State H C} {t : T} (h : exportTorch n M w s = (s', .ok t)) :
    s.ongoing = none ∧ s'.ongoing = none ∧ s'.grads = s.grads ∧
      (∀ j, s'.mods j = if j ∈ n.tree.trainOrder then exported n M (s.mods n.tree.root).training j (s.mods j) else s.mods j) ∧
      ∃ seen, w.trace seen = some t ∧
        (∀ j, seen.mods j = if j ∈ n.tree.trainOrder then traced n M j (s.mods j) else s.mods j) ∧
        (∀ p, seen.grads p = if p ∈ n.params then false else s.grads p) ∧ seen.ongoing = some M.target := by
  obtain ⟨ho, sf, hb, rfl⟩ := withContext_ok h
  unfold jitInferenceTrace at hb
  simp only at hb
  obtain ⟨s1, _, h1, hb⟩ := andThen_ok.mp hb
  obtain ⟨s2, _, h2, hb⟩ := andThen_ok.mp hb
  obtain ⟨s3, _, h3, hb⟩ := andThen_ok.mp hb
  obtain ⟨s4, _, h4, hb⟩ := andThen_ok.mp hb
  obtain ⟨s5, bk, h5, hb⟩ := andThen_ok.mp hb
  obtain ⟨s6, t', h6, hb⟩ := andThen_ok.mp hb
  obtain ⟨s7, _, h7, hb⟩ := andThen_ok.mp hb
  obtain ⟨s8, _, h8, hb⟩ := andThen_ok.mp hb
  obtain ⟨s9, _, h9, hb⟩ := andThen_ok.mp hb
  simp only [ret, Prod.mk.injEq, Except.ok.injEq] at hb
  obtain ⟨rfl, rfl⟩ := hb
  obtain ⟨a1, a2, a3⟩ := before_trace h1 h2 h3 h4
  unfold forceGradFalse at h5
  obtain ⟨s5', _, h5a, h5'⟩ := andThen_ok.mp h5
  simp only [ret, Prod.mk.injEq, Except.ok.injEq] at h5'
  obtain ⟨rfl, rfl⟩ := h5'
  obtain ⟨b1, b2, -, b4⟩ := forEach_grads _ (fun _ => false) _ _ h5a
  obtain ⟨rfl, ht⟩ := runTrace_ok h6
  obtain ⟨c1, c2, -, c4⟩ := forEach_grads _ s4.grads _ _ h7
  obtain ⟨d1, d2, d3⟩ := after_trace h8 h9
  refine ⟨ho, rfl, ?_, fun j => ?_, s6, ht, fun j => ?_, fun p => ?_, ?_⟩
  · funext p
    simp only
    rw [d2, c4 p, b4 p, a2]
    by_cases hp : p ∈ n.params <;> simp [hp]
  · simp only
    rw [d1 j, c1, b1, a1 j]
    by_cases hj : j ∈ n.tree.trainOrder <;> simp [hj, exported]
  · rw [b1, a1 j]
  · rw [b4 p, a2]
  · rw [b2, a3]

theorem runPost_ok {w : World H C T} {r : T} {s s' : State H C} {t : T} (h : runPost w r s = (s', .ok t)) :
    s' = s ∧ w.post r = some t := by
  unfold runPost at h
  rcases hw : w.post r with _ | u
  · simp [hw, raise] at h
  · simp only [hw, ret, Prod.mk.injEq, Except.ok.injEq] at h
    exact ⟨h.1.symm, by rw [h.2]⟩

/-- The body of an ONNX export up to the clean-up. -/
def onnxBody (n : Net) (M : Manager H) (w : World H C T) (b : Bool) : Prog (State H C) T :=
  (train n false).andThen fun _ =>
  (forEach n.tree.applyOrder (setExportHandler n M)).andThen fun _ =>
  (cacheInpOut n w).andThen fun _ =>
  (setExportModes n w true M.kinds).andThen fun _ =>
  (applyAll n (overrideFlag .act false)).andThen fun _ =>
  (runTrace w).andThen fun traced =>
  (applyAll n (restoreFlag .act)).andThen fun _ =>
  (setExportModes n w false M.kinds).andThen fun _ =>
  (train n b).andThen fun _ => ret traced

theorem restore_override_of_none (f : Flag) (b : Bool) (m : Attrs H) (h : m.backup f = none) :
    restoreFlag f (overrideFlag f b m) = m := by
  rcases m with ⟨t, e, hd, fl, bk⟩
  simp only at h
  unfold overrideFlag
  rcases hf : fl f with _ | v
  · simp [hf, restoreFlag, h]
  · simp only [hf, h, restoreFlag, Function.update_self, Function.update_idem]
    congr 1
    · rw [← hf, Function.update_eq_self]
    · rw [← h, Function.update_eq_self]

theorem traced_backup (n : Net) (M : Manager H) (i : ℕ) (m : Attrs H) (f : Flag) : (traced n M i m).backup f = none := by
  unfold traced modeSet
  split_ifs <;> simp [settled]

theorem onnxBody_ok {n : Net} {M : Manager H} {w : World H C T} {b : Bool} {s s' : State H C} {t : T}
    (h : onnxBody n M w b s = (s', .ok t)) :
    s'.ongoing = s.ongoing ∧ s'.grads = s.grads ∧
      (∀ j, s'.mods j = if j ∈ n.tree.trainOrder then exported n M b j (s.mods j) else s.mods j) ∧
      ∃ seen, w.trace seen = some t ∧
        (∀ j, seen.mods j = if j ∈ n.tree.trainOrder then overrideFlag .act false (traced n M j (s.mods j)) else s.mods j) ∧
        seen.grads = s.grads ∧ seen.ongoing = s.ongoing := by
  unfold onnxBody at h
  obtain ⟨s1, _, h1, h⟩ := andThen_ok.mp h
  obtain ⟨s2, _, h2, h⟩ := andThen_ok.mp h
  obtain ⟨s3, _, h3, h⟩ := andThen_ok.mp h
  obtain ⟨s4, _, h4, h⟩ := andThen_ok.mp h
  obtain ⟨s5, _, h5, h⟩ := andThen_ok.mp h
  obtain ⟨s6, t', h6, h⟩ := andThen_ok.mp h
  obtain ⟨s7, _, h7, h⟩ := andThen_ok.mp h
  obtain ⟨s8, _, h8, h⟩ := andThen_ok.mp h
  obtain ⟨s9, _, h9, h⟩ := andThen_ok.mp h
  simp only [ret, Prod.mk.injEq, Except.ok.injEq] at h
  obtain ⟨rfl, rfl⟩ := h
  obtain ⟨a1, a2, a3⟩ := before_trace h1 h2 h3 h4
  obtain ⟨b1, b2, b3⟩ := maps_applyAll n _ (override_idem .act false) _ _ h5
  obtain ⟨rfl, ht⟩ := runTrace_ok h6
  obtain ⟨c1, c2, c3⟩ := maps_applyAll n _ (restore_idem .act) _ _ h7
  obtain ⟨d1, d2, d3⟩ := after_trace h8 h9
  refine ⟨by rw [d3, c3, b3, a3], by rw [d2, c2, b2, a2], fun j => ?_, s6, ht, fun j => ?_, by rw [b2, a2], by rw [b3, a3]⟩
  · rw [d1 j, c1 j, b1 j, a1 j]
    by_cases hj : j ∈ n.tree.trainOrder
    · simp only [hj, if_true]
      rw [restore_override_of_none _ _ _ (traced_backup n M j _ _)]
      rfl
    · simp [hj]
  · rw [b1 j, a1 j]
    by_cases hj : j ∈ n.tree.trainOrder <;> simp [hj]

theorem exportOnnx_eq (n : Net) (M : Manager H) (w : World H C T) (argsOk : Bool) (s : State H C) :
    exportOnnx n M w argsOk s =
      if !argsOk then raise .arguments s
      else withContext M ((onnxBody n M w (s.mods n.tree.root).training).andThen (runPost w)) s := by
  unfold exportOnnx
  split
  · rfl
  · unfold withContext
    split
    · rfl
    · unfold onnxBody
      simp only [andThen_assoc]
      rfl

/-! ### Whatever the outcome -/

/-- What no export changes: the value a caching flag will be given back, modules outside the model, parameters not in `G`. -/
def Inv (n : Net) (G : List ℕ) (s s' : State H C) : Prop :=
  (∀ j, eff (s'.mods j) = eff (s.mods j)) ∧ (∀ j, j ∉ n.tree.trainOrder → s'.mods j = s.mods j) ∧
    ∀ p, p ∉ G → s'.grads p = s.grads p

theorem Inv.refl (n : Net) (G : List ℕ) (s : State H C) : Inv n G s s := ⟨fun _ => rfl, fun _ _ => rfl, fun _ _ => rfl⟩

theorem Inv.trans {n : Net} {G : List ℕ} (a b c : State H C) (h : Inv n G a b) (h' : Inv n G b c) : Inv n G a c :=
  ⟨fun j => (h'.1 j).trans (h.1 j), fun j hj => (h'.2.1 j hj).trans (h.2.1 j hj), fun p hp => (h'.2.2 p hp).trans (h.2.2 p hp)⟩

section keeps

variable (n : Net) (G : List ℕ)

theorem inv_update (s : State H C) (c : C) (i : ℕ) (hi : i ∈ n.tree.trainOrder) (m : Attrs H) (hm : eff m = eff (s.mods i)) :
    Inv n G s { s with mods := Function.update s.mods i m, caches := c } := by
  refine ⟨fun j => ?_, fun j hj => ?_, fun _ _ => rfl⟩
  · by_cases hj : j = i
    · subst hj; simp [hm]
    · simp [hj]
  · have : j ≠ i := fun h => hj (h ▸ hi)
    simp [this]

theorem keeps_setMod (i : ℕ) (hi : i ∈ n.tree.trainOrder) (f : Attrs H → Attrs H) (hf : ∀ m, eff (f m) = eff m) :
    Keeps (Inv (C := C) n G) (setMod i f) := fun s => inv_update n G s s.caches i hi _ (hf _)

theorem keeps_train (b : Bool) : Keeps (Inv (H := H) (C := C) n G) (train n b) :=
  keeps_forEach (Inv.refl n G) Inv.trans fun i hi => keeps_setMod n G i hi _ fun _ => rfl

theorem keeps_applyAll (f : Attrs H → Attrs H) (hf : ∀ m, eff (f m) = eff m) : Keeps (Inv (C := C) n G) (applyAll n f) :=
  keeps_forEach (Inv.refl n G) Inv.trans fun i hi => keeps_setMod n G i ((n.tree.mem_apply_iff i).mp hi) _ hf

theorem keeps_handlers (M : Manager H) : Keeps (Inv (C := C) n G) (forEach n.tree.applyOrder (setExportHandler n M)) := by
  refine keeps_forEach (Inv.refl n G) Inv.trans fun i hi s => ?_
  unfold setExportHandler
  split
  · split
    · split <;> exact Inv.refl n G s
    · rename_i hd _
      exact keeps_setMod n G i ((n.tree.mem_apply_iff i).mp hi) (fun m => { m with handler := some hd }) (fun _ => rfl) s
  · exact Inv.refl n G s

theorem keeps_mode (w : World H C T) (value : Bool) (i : ℕ) (hi : i ∈ n.tree.trainOrder) :
    Keeps (Inv n G) (setExportMode n w value i) := by
  intro s
  unfold setExportMode
  split
  · exact Inv.refl n G s
  split
  · exact Inv.refl n G s
  split
  · exact Inv.refl n G s
  split
  · exact Inv.refl n G s
  split
  · simp only
    split
    · exact inv_update n G s (w.prepare s i).1 i hi { s.mods i with exportMode := value } rfl
    · exact ⟨fun _ => rfl, fun _ _ => rfl, fun _ _ => rfl⟩
  split
  · exact keeps_setMod n G i hi (fun m => { m with handler := none, exportMode := value }) (fun _ => rfl) s
  · exact keeps_setMod n G i hi (fun m => { m with exportMode := value }) (fun _ => rfl) s

theorem keeps_modes (w : World H C T) (value : Bool) (ks : List Kind) : Keeps (Inv n G) (setExportModes n w value ks) := by
  induction ks with
  | nil => exact keeps_ret (Inv.refl n G) ()
  | cons k ks ih =>
    refine keeps_andThen Inv.trans (keeps_forEach (Inv.refl n G) Inv.trans fun i hi => ?_) fun _ => ih
    split
    · exact keeps_mode n G w value i ((n.tree.mem_modules_iff i).mp hi)
    · exact keeps_ret (Inv.refl n G) ()

theorem keeps_forward (w : World H C T) : Keeps (Inv n G) (runForward w) := by
  intro s
  unfold runForward
  simp only
  split <;> exact ⟨fun _ => rfl, fun _ _ => rfl, fun _ _ => rfl⟩

theorem keeps_cacheInpOut (w : World H C T) : Keeps (Inv n G) (cacheInpOut n w) := by
  have o : ∀ f b, Keeps (Inv (C := C) n G) (applyAll n (overrideFlag (H := H) f b)) :=
    fun f b => keeps_applyAll n G _ (eff_override f b)
  have r : ∀ f, Keeps (Inv (C := C) n G) (applyAll n (restoreFlag (H := H) f)) := fun f => keeps_applyAll n G _ (eff_restore f)
  exact keeps_andThen Inv.trans (o _ _) fun _ => keeps_andThen Inv.trans (o _ _) fun _ => keeps_andThen Inv.trans (o _ _) fun _ =>
    keeps_andThen Inv.trans (keeps_forward n G w) fun _ => keeps_andThen Inv.trans (r _) fun _ =>
    keeps_andThen Inv.trans (r _) fun _ => r _

theorem keeps_trace (w : World H C T) : Keeps (Inv n G) (runTrace w) := by
  intro s
  unfold runTrace
  split <;> exact Inv.refl n G s

theorem keeps_post (w : World H C T) (t : T) : Keeps (Inv n G) (runPost w t) := by
  intro s
  unfold runPost
  split <;> exact Inv.refl n G s

theorem keeps_grads (g : ℕ → Bool) :
    Keeps (Inv n n.params)
      (forEach n.params fun p => assign fun s : State H C => { s with grads := Function.update s.grads p (g p) }) := by
  refine keeps_forEach (Inv.refl n _) Inv.trans fun p hp s => ⟨fun _ => rfl, fun _ _ => rfl, fun q hq => ?_⟩
  have : q ≠ p := fun h => hq (h ▸ hp)
  simp [assign, this]

theorem keeps_force : Keeps (Inv n n.params) (forceGradFalse (H := H) (C := C) n) := by
  intro s
  exact keeps_andThen Inv.trans (keeps_grads n fun _ => false) (fun _ => keeps_ret (Inv.refl n _) s.grads) s

theorem keeps_context {A : Type*} (M : Manager H) (body : Prog (State H C) A) (h : Keeps (Inv n G) body) :
    Keeps (Inv n G) (withContext M body) := by
  intro s
  unfold withContext
  split
  · exact Inv.refl n G s
  · exact ⟨(h { s with ongoing := some M.target }).1, (h { s with ongoing := some M.target }).2.1,
      (h { s with ongoing := some M.target }).2.2⟩

theorem keeps_torch (M : Manager H) (w : World H C T) : Keeps (Inv n n.params) (exportTorch n M w) := by
  refine keeps_context n _ M _ fun s => ?_
  unfold jitInferenceTrace
  exact keeps_andThen Inv.trans (keeps_train n _ _) (fun _ => keeps_andThen Inv.trans (keeps_handlers n _ M) fun _ =>
    keeps_andThen Inv.trans (keeps_cacheInpOut n _ w) fun _ => keeps_andThen Inv.trans (keeps_modes n _ w _ _) fun _ =>
    keeps_andThen Inv.trans (keeps_force n) fun b => keeps_andThen Inv.trans (keeps_trace n _ w) fun _ =>
    keeps_andThen Inv.trans (keeps_grads n b) fun _ => keeps_andThen Inv.trans (keeps_modes n _ w _ _) fun _ =>
    keeps_andThen Inv.trans (keeps_train n _ _) fun _ => keeps_ret (Inv.refl n _) _) s

theorem keeps_onnx (M : Manager H) (w : World H C T) (a : Bool) : Keeps (Inv n []) (exportOnnx n M w a) := by
  intro s
  rw [exportOnnx_eq]
  split
  · exact Inv.refl n _ s
  · refine keeps_context n _ M _ ?_ s
    refine keeps_andThen Inv.trans ?_ fun t => keeps_post n _ w t
    exact keeps_andThen Inv.trans (keeps_train n _ _) fun _ => keeps_andThen Inv.trans (keeps_handlers n _ M) fun _ =>
      keeps_andThen Inv.trans (keeps_cacheInpOut n _ w) fun _ => keeps_andThen Inv.trans (keeps_modes n _ w _ _) fun _ =>
      keeps_andThen Inv.trans (keeps_applyAll n _ _ (eff_override _ _)) fun _ => keeps_andThen Inv.trans (keeps_trace n _ w) fun _ =>
      keeps_andThen Inv.trans (keeps_applyAll n _ _ (eff_restore _)) fun _ => keeps_andThen Inv.trans (keeps_modes n _ w _ _) fun _ =>
      keeps_andThen Inv.trans (keeps_train n _ _) fun _ => keeps_ret (Inv.refl n _) _

theorem inv_weaken {s s' : State H C} (h : Inv n [] s s') : Inv n G s s' := ⟨h.1, h.2.1, fun p _ => h.2.2 p (by simp)⟩

theorem keeps_call (c : Call H C T) : Keeps (Inv n n.params) (c.run n) := by
  cases c with
  | torch M w => exact keeps_torch n M w
  | onnx M w a => exact fun s => inv_weaken n _ (keeps_onnx n M w a s)

theorem keeps_history (cs : List (Call H C T)) (s : State H C) : Inv n n.params s (runHistory n cs s) := by
  induction cs generalizing s with
  | nil => exact Inv.refl n _ s
  | cons c cs ih => exact Inv.trans _ _ _ (keeps_call n c s) (ih _)

end keeps

/-! ### Where an exception comes from -/

/-- An exception of tracing or of the clean-up. -/
def Late (e : Err) : Prop := e = .trace ∨ e = .post

section never

variable (n : Net) {e : Err} (he : Late e)

theorem never_applyAll (f : Attrs H → Attrs H) : Never e (applyAll (C := C) n f) := never_forEach fun _ => never_assign _

theorem never_train (b : Bool) : Never e (train (H := H) (C := C) n b) := never_forEach fun _ => never_assign _

include he

theorem never_handlers (M : Manager H) : Never e (forEach n.tree.applyOrder (setExportHandler (C := C) n M)) := by
  refine never_forEach fun i s s' h => ?_
  unfold setExportHandler at h
  rcases he with rfl | rfl <;> split at h <;> (try split at h) <;> (try split at h) <;> simp [raise, ret, setMod, assign] at h

theorem never_mode (w : World H C T) (value : Bool) (i : ℕ) : Never e (setExportMode n w value i) := by
  intro s s' h
  unfold setExportMode at h
  rcases he with rfl | rfl <;> simp only at h <;> (repeat' split at h) <;> simp [raise, ret, setMod, assign] at h

theorem never_modes (w : World H C T) (value : Bool) (ks : List Kind) : Never e (setExportModes n w value ks) := by
  induction ks with
  | nil => exact never_ret ()
  | cons k ks ih =>
    refine never_andThen (never_forEach fun i => ?_) fun _ => ih
    split
    · exact never_mode n he w value i
    · exact never_ret ()

theorem never_cacheInpOut (w : World H C T) : Never e (cacheInpOut n w) := by
  have f : Never e (runForward w) := by
    intro s s' h
    unfold runForward at h
    rcases he with rfl | rfl <;> simp only at h <;> split at h <;> simp [raise, ret] at h
  exact never_andThen (never_applyAll n _) fun _ => never_andThen (never_applyAll n _) fun _ => never_andThen (never_applyAll n _) fun _ =>
    never_andThen f fun _ => never_andThen (never_applyAll n _) fun _ => never_andThen (never_applyAll n _) fun _ => never_applyAll n _

end never

theorem runTrace_error {w : World H C T} {s s' : State H C} {e : Err} (h : runTrace w s = (s', .error e)) :
    s' = s ∧ e = .trace ∧ w.trace s = none := by
  unfold runTrace at h
  rcases hw : w.trace s with _ | u
  · simp only [hw, raise, Prod.mk.injEq, Except.error.injEq] at h
    exact ⟨h.1.symm, h.2.symm, rfl⟩
  · simp [hw, ret] at h

theorem torch_trace_error {n : Net} {M : Manager H} {w : World H C T} {s s' : State H C}
    (h : exportTorch n M w s = (s', .error .trace)) :
    (∀ j, s'.mods j = if j ∈ n.tree.trainOrder then traced n M j (s.mods j) else s.mods j) ∧
      ∀ p, s'.grads p = if p ∈ n.params then false else s.grads p := by
  have he : Late .trace := Or.inl rfl
  obtain ⟨ho, sf, hb, rfl⟩ := withContext_error h (by simp)
  unfold jitInferenceTrace at hb
  simp only at hb
  obtain ⟨s1, _, h1, hb⟩ := (andThen_error.mp hb).resolve_left (never_train n _ _ _)
  obtain ⟨s2, _, h2, hb⟩ := (andThen_error.mp hb).resolve_left (never_handlers n he M _ _)
  obtain ⟨s3, _, h3, hb⟩ := (andThen_error.mp hb).resolve_left (never_cacheInpOut n he w _ _)
  obtain ⟨s4, _, h4, hb⟩ := (andThen_error.mp hb).resolve_left (never_modes n he w _ _ _ _)
  have nf : Never .trace (forceGradFalse (H := H) (C := C) n) := by
    intro s s' h
    exact never_andThen (never_forEach fun _ => never_assign _) (fun _ => never_ret s.grads) s s' h
  obtain ⟨s5, bk, h5, hb⟩ := (andThen_error.mp hb).resolve_left (nf _ _)
  obtain ⟨a1, a2, a3⟩ := before_trace h1 h2 h3 h4
  unfold forceGradFalse at h5
  obtain ⟨s5', _, h5a, h5'⟩ := andThen_ok.mp h5
  simp only [ret, Prod.mk.injEq, Except.ok.injEq] at h5'
  obtain ⟨rfl, rfl⟩ := h5'
  obtain ⟨b1, b2, -, b4⟩ := forEach_grads _ (fun _ => false) _ _ h5a
  rcases andThen_error.mp hb with hb | ⟨s6, t', h6, hb⟩
  · obtain ⟨rfl, -, -⟩ := runTrace_error hb
    exact ⟨fun j => by simp only; rw [b1, a1 j], fun p => by simp only; rw [b4 p, a2]⟩
  · exfalso
    exact never_andThen (never_forEach fun _ => never_assign _)
      (fun _ => never_andThen (never_modes n he w _ _) fun _ => never_andThen (never_train n _) fun _ => never_ret t') _ _ hb

theorem onnxBody_error {n : Net} {M : Manager H} {w : World H C T} {b : Bool} {s s' : State H C} {e : Err} (he : Late e)
    (h : onnxBody n M w b s = (s', .error e)) :
    e = .trace ∧
      (∀ j, s'.mods j = if j ∈ n.tree.trainOrder then overrideFlag .act false (traced n M j (s.mods j)) else s.mods j) := by
  unfold onnxBody at h
  obtain ⟨s1, _, h1, h⟩ := (andThen_error.mp h).resolve_left (never_train n _ _ _)
  obtain ⟨s2, _, h2, h⟩ := (andThen_error.mp h).resolve_left (never_handlers n he M _ _)
  obtain ⟨s3, _, h3, h⟩ := (andThen_error.mp h).resolve_left (never_cacheInpOut n he w _ _)
  obtain ⟨s4, _, h4, h⟩ := (andThen_error.mp h).resolve_left (never_modes n he w _ _ _ _)
  obtain ⟨s5, _, h5, h⟩ := (andThen_error.mp h).resolve_left (never_applyAll n _ _ _)
  obtain ⟨a1, a2, a3⟩ := before_trace h1 h2 h3 h4
  obtain ⟨b1, b2, b3⟩ := maps_applyAll n _ (override_idem .act false) _ _ h5
  rcases andThen_error.mp h with h | ⟨s6, t', h6, h⟩
  · obtain ⟨rfl, h', -⟩ := runTrace_error h
    refine ⟨h', fun j => ?_⟩
    rw [b1 j, a1 j]
    by_cases hj : j ∈ n.tree.trainOrder <;> simp [hj]
  · exfalso
    exact never_andThen (never_applyAll n _)
      (fun _ => never_andThen (never_modes n he w _ _) fun _ => never_andThen (never_train n _) fun _ => never_ret t') _ _ h

/-! ### Attribute by attribute -/

attribute [ext] Attrs

section fields

variable (n : Net) (M : Manager H) (b : Bool) (i : ℕ) (m : Attrs H)

theorem withHandler_fields :
    (withHandler n M i m).handler = (if covered n M i then m.handler.or (M.handlerFor i) else m.handler) ∧
      (withHandler n M i m).exportMode = m.exportMode ∧ (withHandler n M i m).training = m.training ∧
      eff (withHandler n M i m) = eff m := by
  unfold withHandler
  split <;> exact ⟨rfl, rfl, rfl, rfl⟩

theorem modeSet_fields (v : Bool) :
    (modeSet n v M.kinds i m).handler = (if covered n M i then (if v then m.handler else none) else m.handler) ∧
      (modeSet n v M.kinds i m).exportMode =
        (if covered n M i then (if v then (if m.handler.isSome then true else m.exportMode) else false) else m.exportMode) ∧
      (modeSet n v M.kinds i m).training = m.training ∧ (modeSet n v M.kinds i m).flag = m.flag ∧
      (modeSet n v M.kinds i m).backup = m.backup := by
  unfold modeSet
  by_cases hc : covered n M i
  · have hc' : (n.info i).kind ∈ M.kinds ∧ (n.info i).exportable = true := hc
    simp only [if_pos hc, if_pos hc']
    cases v
    · simp
    · rcases hh : m.handler <;> simp [hh]
  · have hc' : ¬ ((n.info i).kind ∈ M.kinds ∧ (n.info i).exportable = true) := hc
    simp only [if_neg hc, if_neg hc']
    simp

theorem traced_fields :
    (traced n M i m).handler = (if covered n M i then m.handler.or (M.handlerFor i) else m.handler) ∧
      (traced n M i m).exportMode =
        (if covered n M i then (if (m.handler.or (M.handlerFor i)).isSome then true else m.exportMode) else m.exportMode) ∧
      (traced n M i m).training = false ∧ (traced n M i m).flag = eff m ∧ (traced n M i m).backup = fun _ => none := by
  unfold traced
  obtain ⟨h1, h2, h3, h4, h5⟩ := modeSet_fields n M i (settled (withHandler n M i { m with training := false })) true
  obtain ⟨g1, g2, g3, g4⟩ := withHandler_fields n M i { m with training := false }
  refine ⟨?_, ?_, h3.trans g3, ?_, h5⟩
  · rw [h1]
    by_cases hc : covered n M i <;> simp [hc, settled, g1]
  · rw [h2]
    by_cases hc : covered n M i <;> simp [hc, settled, g1, g2]
  · rw [h4]
    exact g4

theorem exported_fields :
    (exported n M b i m).handler = (if covered n M i then none else m.handler) ∧
      (exported n M b i m).exportMode = (if covered n M i then false else m.exportMode) ∧
      (exported n M b i m).training = b ∧ (exported n M b i m).flag = eff m ∧ (exported n M b i m).backup = fun _ => none := by
  obtain ⟨h1, h2, h3, h4, h5⟩ := modeSet_fields n M i (traced n M i m) false
  obtain ⟨g1, g2, g3, g4, g5⟩ := traced_fields n M i m
  refine ⟨?_, ?_, rfl, h4.trans g4, h5.trans g5⟩
  · show (modeSet n false M.kinds i (traced n M i m)).handler = _
    rw [h1, g1]
    by_cases hc : covered n M i <;> simp [hc]
  · show (modeSet n false M.kinds i (traced n M i m)).exportMode = _
    rw [h2, g2]
    by_cases hc : covered n M i <;> simp [hc]

end fields

theorem override_fields (f : Flag) (b : Bool) (m : Attrs H) :
    (overrideFlag f b m).training = m.training ∧ (overrideFlag f b m).exportMode = m.exportMode ∧
      (overrideFlag f b m).handler = m.handler := by
  unfold overrideFlag; split <;> simp

/-! ### A quantiser without a handler -/

theorem forEach_mem_error {S : Type*} {body : ℕ → Prog S Unit} {l : List ℕ} {i : ℕ} (hi : i ∈ l) (P : S → Prop)
    (hk : ∀ j s s', P s → body j s = (s', .ok ()) → P s') (hb : ∀ s s', P s → body i s ≠ (s', .ok ())) {s s' : S} (hs : P s) :
    forEach l body s ≠ (s', .ok ()) := by
  induction l generalizing s with
  | nil => simp at hi
  | cons j js ih =>
    intro h
    rw [forEach, andThen_ok] at h
    obtain ⟨s1, _, h1, h2⟩ := h
    rcases List.mem_cons.mp hi with rfl | hi
    · exact hb _ _ hs h1
    · exact ih hi (hk _ _ _ hs h1) h2

theorem handlers_unsupported {n : Net} {M : Manager H} {i : ℕ} (hi : i ∈ n.tree.trainOrder) (hc : covered n M i)
    (hr : (n.info i).required = true) (hn : M.handlerFor i = none) {s s' : State H C} (hh : (s.mods i).handler = none) :
    forEach n.tree.applyOrder (setExportHandler n M) s ≠ (s', .ok ()) := by
  refine forEach_mem_error ((n.tree.mem_apply_iff i).mpr hi) (fun s => (s.mods i).handler = none) ?_ ?_ hh
  · intro j s s' h0 h
    obtain ⟨a, _, _⟩ := actsAs_handler n M j s s' h
    show (s'.mods i).handler = none
    rw [a]
    by_cases hj : i = j
    · subst hj
      rw [Function.update_self, (withHandler_fields n M i _).1, if_pos hc, h0, hn]
      rfl
    · rw [Function.update_of_ne hj]; exact h0
  · intro s s' h0 h
    unfold setExportHandler at h
    have : (decide ((n.info i).kind ∈ M.kinds) && (n.info i).exportable && (s.mods i).handler.isNone) = true := by
      simp [hc.1, hc.2, show (s.mods i).handler = none from h0]
    rw [if_pos this, hn] at h
    simp [hr, raise] at h

end Brevitas.ExportRun
