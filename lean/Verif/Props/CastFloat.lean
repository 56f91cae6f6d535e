import Verif.Model.CastFloat

/-!
# C136: number formats after working in single precision
-/

namespace Brevitas.Props

open Brevitas.CastFloat

variable {V : Type}

/-! ## Helpers -/

private theorem convert_fst (cast : DType → V → V) (d : DType) (t : DType × V) : (convert cast d t).1 = d := by
  unfold convert
  split_ifs with h
  · exact h
  · rfl

private theorem named_spec : ∀ (l : List Entry) (seen : List ℕ), ((named seen l).map Entry.id).Nodup ∧ (∀ e ∈ named seen l, e ∈ l ∧ e.id ∉ seen) ∧
    (∀ e ∈ l, e.id ∉ seen → ∃ e' ∈ named seen l, e'.id = e.id) := by
  intro l
  induction l with
  | nil => intro seen; simp [named]
  | cons e l ih =>
    intro seen
    by_cases h : e.id ∈ seen
    · obtain ⟨h1, h2, h3⟩ := ih seen
      simp only [named, h, if_true]
      refine ⟨h1, fun e' he' => ⟨List.mem_cons_of_mem _ (h2 e' he').1, (h2 e' he').2⟩, ?_⟩
      intro e' he' hs
      rcases List.mem_cons.mp he' with rfl | he'
      · exact absurd h hs
      · exact h3 e' he' hs
    · obtain ⟨h1, h2, h3⟩ := ih (e.id :: seen)
      simp only [named, h, if_false]
      refine ⟨?_, ?_, ?_⟩
      · rw [List.map_cons, List.nodup_cons]
        refine ⟨?_, h1⟩
        intro hm
        obtain ⟨e', he', hid⟩ := List.mem_map.mp hm
        exact (h2 e' he').2 (by rw [hid]; exact List.mem_cons_self)
      · intro e' he'
        rcases List.mem_cons.mp he' with rfl | he'
        · exact ⟨List.mem_cons_self, h⟩
        · exact ⟨List.mem_cons_of_mem _ (h2 e' he').1, fun hs => (h2 e' he').2 (List.mem_cons_of_mem _ hs)⟩
      · intro e' he' hs
        by_cases hid : e'.id = e.id
        · exact ⟨e, List.mem_cons_self, hid.symm⟩
        · rcases List.mem_cons.mp he' with rfl | he'
          · exact absurd rfl hid
          · obtain ⟨e'', h4, h5⟩ := h3 e' he' (by simp [hid, hs])
            exact ⟨e'', List.mem_cons_of_mem _ h4, h5⟩

private theorem foldl_other (cast : DType → V → V) (dict : List (String × DType)) (target : DType) (i : ℕ) : ∀ (l : List Entry) (heap : ℕ → DType × V), i ∉ l.map Entry.id →
    l.foldl (restore cast dict target) heap i = heap i := by
  intro l
  induction l with
  | nil => intro heap _; rfl
  | cons e l ih =>
    intro heap h
    simp only [List.map_cons, List.mem_cons, not_or] at h
    rw [List.foldl_cons, ih _ h.2]
    exact Function.update_of_ne h.1 _ _

private theorem foldl_at (cast : DType → V → V) (dict : List (String × DType)) (target : DType) : ∀ (l : List Entry) (heap : ℕ → DType × V), (l.map Entry.id).Nodup → ∀ e ∈ l,
    l.foldl (restore cast dict target) heap e.id = convert cast ((lookup dict e.name).getD target) (heap e.id) := by
  intro l
  induction l with
  | nil => intro heap _ e he; cases he
  | cons a l ih =>
    intro heap hn e he
    rw [List.map_cons, List.nodup_cons] at hn
    rw [List.foldl_cons]
    rcases List.mem_cons.mp he with rfl | he
    · rw [foldl_other cast dict target _ l _ hn.1]
      exact Function.update_self _ _ _
    · have hne : e.id ≠ a.id := fun h => hn.1 (h ▸ List.mem_map_of_mem he)
      rw [ih _ hn.2 e he]
      congr 1
      exact Function.update_of_ne hne _ _

private theorem lookup_dict (s : State V) (hnames : (s.entries.map Entry.name).Nodup) (e : Entry) (he : e ∈ s.entries) (hp : e.persistent = true) :
    lookup (dtypeDict s) e.name = some (s.heap e.id).1 := by
  unfold dtypeDict
  obtain ⟨entries, heap⟩ := s
  simp only at hnames he ⊢
  induction entries with
  | nil => cases he
  | cons a l ih =>
    rw [List.map_cons, List.nodup_cons] at hnames
    rcases List.mem_cons.mp he with rfl | he
    · simp [hp, lookup]
    · have hne : a.name ≠ e.name := fun h => hnames.1 (h ▸ List.mem_map_of_mem he)
      by_cases ha : a.persistent = true
      · simp only [List.filter_cons, ha, if_true, List.map_cons, lookup, hne, if_false]
        exact ih hnames.2 he
      · simp only [List.filter_cons, ha, if_false]
        exact ih hnames.2 he

private theorem lookup_none (s : State V) (k : String) (h : k ∉ s.entries.map Entry.name) : lookup (dtypeDict s) k = none := by
  unfold dtypeDict
  obtain ⟨entries, heap⟩ := s
  simp only at h ⊢
  induction entries with
  | nil => rfl
  | cons a l ih =>
    simp only [List.map_cons, List.mem_cons, not_or] at h
    by_cases ha : a.persistent = true
    · simp only [List.filter_cons, ha, if_true, List.map_cons, lookup, Ne.symm h.1, if_false]
      exact ih h.2
    · simp only [List.filter_cons, ha, if_false]
      exact ih h.2

/-! ## C136 -/

/-- C136, inside of the block: all floating point parameters and persistent buffers are in single precision, the others are as before. -/
theorem C136_inside (cast : DType → V → V) (s : State V) (e : Entry) (he : e ∈ s.entries) (hp : e.persistent = true) :
    ((s.heap e.id).1 ∈ [DType.float16, .bfloat16, .float32, .float64] → ((enter cast s).heap e.id).1 = .float32) ∧
      ((s.heap e.id).1 ∈ [DType.int64, .bool] → (enter cast s).heap e.id = s.heap e.id) ∧ (enter cast s).entries = s.entries := by
  have htrue : ∀ d : DType, d ∈ [DType.float16, .bfloat16, .float32, .float64] → d.isFloat = true := by intro d; cases d <;> decide
  have hfalse : ∀ d : DType, d ∈ [DType.int64, .bool] → d.isFloat = false := by intro d; cases d <;> decide
  unfold enter
  by_cases h : ∃ e ∈ dtypeDict s, e.2 ≠ .float32
  · rw [if_pos h]
    refine ⟨fun hf => ?_, fun hf => ?_, rfl⟩
    · show (if e.id ∈ s.entries.map Entry.id ∧ _ then _ else _ : DType × V).1 = _
      rw [if_pos ⟨List.mem_map_of_mem he, htrue _ hf⟩, convert_fst]
    · show (if e.id ∈ s.entries.map Entry.id ∧ _ then _ else _ : DType × V) = _
      rw [if_neg (by rw [hfalse _ hf]; simp)]
  · rw [if_neg h]
    refine ⟨fun _ => ?_, fun _ => rfl, rfl⟩
    push Not at h
    have hm : (e.name, (s.heap e.id).1) ∈ dtypeDict s := List.mem_map.mpr ⟨e, List.mem_filter.mpr ⟨he, hp⟩, rfl⟩
    exact h _ hm

/-- C136: whatever the block does, and also if it raises, afterwards each parameter and persistent buffer that was there before, and is still of its own (a name is of the same
tensor as another only if it was), has its format back. Tensors under new names only have the target format. -/
theorem C136_formats_restored (cast : DType → V → V) (target : DType) (body : State V → State V × Bool) (s : State V) (hnames : (s.entries.map Entry.name).Nodup) :
    let r := castToFloat32 cast target body s
    let mid := (body (enter cast s)).1
    r.1.entries = mid.entries ∧ r.2 = (body (enter cast s)).2 ∧
    (∀ e ∈ mid.entries, ∀ e₀ ∈ s.entries, e₀.name = e.name → e₀.persistent = true → (∀ e' ∈ mid.entries, e'.id = e.id → ∃ e₁ ∈ s.entries, e₁.name = e'.name ∧
      e₁.persistent = true ∧ e₁.id = e₀.id) → (r.1.heap e.id).1 = (s.heap e₀.id).1) ∧
    (∀ e ∈ mid.entries, (∀ e' ∈ mid.entries, e'.id = e.id → e'.name ∉ s.entries.map Entry.name) → (r.1.heap e.id).1 = target) := by
  intro r mid
  obtain ⟨h1, h2, h3⟩ := named_spec mid.entries []
  have key : ∀ e ∈ mid.entries, ∃ e' ∈ mid.entries, e'.id = e.id ∧ r.1.heap e.id = convert cast ((lookup (dtypeDict s) e'.name).getD target) (mid.heap e.id) := by
    intro e he
    obtain ⟨e', he', hid⟩ := h3 e he (by simp)
    refine ⟨e', (h2 e' he').1, hid, ?_⟩
    have := foldl_at cast (dtypeDict s) target _ mid.heap h1 e' he'
    rw [hid] at this
    exact this
  refine ⟨rfl, rfl, ?_, ?_⟩
  · intro e he e₀ he₀ hn hp htie
    obtain ⟨e', he', hid, hr⟩ := key e he
    obtain ⟨e₁, h4, h5, h6, h7⟩ := htie e' he' hid
    rw [hr, convert_fst, ← h5, lookup_dict s hnames e₁ h4 h6, h7]
    rfl
  · intro e he hnew
    obtain ⟨e', he', hid, hr⟩ := key e he
    rw [hr, convert_fst, lookup_none s _ (hnew e' he' hid)]
    rfl

/-- C136: if the block leaves the model as it is, the model is afterwards what it was before, values included, provided that it has no double precision and its buffers are
persistent. `fits` says which values a format can represent: conversion does not change those. -/
theorem C136_nothing_changes (cast : DType → V → V) (fits : DType → V → Prop) (hcast : ∀ d v, fits d v → cast d v = v) (hwide : ∀ d v, d ∈ [DType.float16, .bfloat16, .float32] → fits d v → fits .float32 v)
    (target : DType) (s : State V) (hnames : (s.entries.map Entry.name).Nodup) (hp : ∀ e ∈ s.entries, e.persistent = true) (hfits : ∀ e ∈ s.entries, fits (s.heap e.id).1 (s.heap e.id).2)
    (hd : ∀ e ∈ s.entries, (s.heap e.id).1 ≠ .float64) : castToFloat32 cast target (fun s => (s, true)) s = (s, true) := by
  have hent : (enter cast s).entries = s.entries := by unfold enter; split_ifs <;> rfl
  have hval : ∀ e ∈ s.entries, ((enter cast s).heap e.id).2 = (s.heap e.id).2 := by
    intro e he
    unfold enter
    split_ifs with h
    · show (if e.id ∈ s.entries.map Entry.id ∧ _ then _ else _ : DType × V).2 = _
      split_ifs with hf
      · unfold convert
        split_ifs with h32
        · rfl
        · exact hcast _ _ (hwide _ _ (by have h1 := hf.2; have h2 := hd e he; revert h1 h2; cases (s.heap e.id).1 <;> simp [DType.isFloat]) (hfits e he))
      · rfl
    · rfl
  have hout : ∀ i, i ∉ s.entries.map Entry.id → (enter cast s).heap i = s.heap i := by
    intro i hi
    unfold enter
    split_ifs with h
    · exact if_neg fun hc => hi hc.1
    · rfl
  obtain ⟨h1, h2, h3⟩ := named_spec s.entries []
  have hheap : (leave cast (dtypeDict s) target (enter cast s)).heap = s.heap := by
    funext i
    show (named [] (enter cast s).entries).foldl (restore cast (dtypeDict s) target) (enter cast s).heap i = _
    rw [hent]
    by_cases hi : i ∈ s.entries.map Entry.id
    · obtain ⟨e, he, rfl⟩ := List.mem_map.mp hi
      obtain ⟨e', he', hid⟩ := h3 e he (by simp)
      have hm := (h2 e' he').1
      rw [← hid, foldl_at cast _ target _ _ h1 e' he', lookup_dict s hnames e' hm (hp e' hm), Option.getD_some]
      unfold convert
      split_ifs with h
      · exact Prod.ext h (hval e' hm)
      · rw [hval e' hm]
        exact Prod.ext rfl (hcast _ _ (hfits e' hm))
    · rw [foldl_other cast _ target i _ _ (fun hc => hi (by
        obtain ⟨e, he, rfl⟩ := List.mem_map.mp hc
        exact List.mem_map_of_mem (h2 e he).1)), hout i hi]
  unfold castToFloat32
  refine Prod.ext ?_ rfl
  show leave cast (dtypeDict s) target (enter cast s) = s
  have : (leave cast (dtypeDict s) target (enter cast s)).entries = s.entries := hent
  cases hs : leave cast (dtypeDict s) target (enter cast s) with
  | mk en hp' =>
    rw [hs] at this hheap
    cases s
    simp only at this hheap
    rw [this, hheap]

/-! ## Disagreements -/

/-- Disagreement: a buffer that is not persistent, such as a mask of truth values, has the target format afterwards, even if nothing was done. -/
theorem C136_mask_is_converted (cast : DType → V → V) (v w : V) :
    let s : State V := ⟨[⟨"weight", 0, true⟩, ⟨"mask", 1, false⟩], fun i => if i = 1 then (.bool, v) else (.float16, w)⟩
    (s.heap 1).1 = .bool ∧ ((castToFloat32 cast .float16 (fun s => (s, true)) s).1.heap 1) = (.float16, cast .float16 v) := by
  refine ⟨rfl, ?_⟩
  simp [castToFloat32, leave, enter, dtypeDict, toFloat32, named, restore, convert, lookup, DType.isFloat, Function.update]

/-- Disagreement: a new tensor of integers, such as a counter, has the target format afterwards. -/
theorem C136_counter_is_converted (cast : DType → V → V) (v w : V) :
    let s : State V := ⟨[⟨"weight", 0, true⟩], fun _ => (.float32, w)⟩
    let body := fun s : State V => ((⟨s.entries ++ [⟨"counter", 1, true⟩], fun i => if i = 1 then (.int64, v) else s.heap i⟩ : State V), true)
    ((castToFloat32 cast .float16 body s).1.heap 1) = (.float16, cast .float16 v) := by
  simp [castToFloat32, leave, enter, dtypeDict, named, restore, convert, lookup, Function.update]

/-- Disagreement: double precision is lost: the value afterwards is what single precision makes of it. -/
theorem C136_double_precision_lost (cast : DType → V → V) (target : DType) (v : V) :
    ((castToFloat32 cast target (fun s => (s, true)) ⟨[⟨"weight", 0, true⟩], fun _ => (.float64, v)⟩).1.heap 0) = (.float64, cast .float64 (cast .float32 v)) := by
  simp [castToFloat32, leave, enter, dtypeDict, toFloat32, named, restore, convert, lookup, DType.isFloat, Function.update]

/-! ## Examples -/

/-- Tied weights in half precision and a counter. -/
private def tied : State ℕ := ⟨[⟨"embed.weight", 0, true⟩, ⟨"head.weight", 0, true⟩, ⟨"steps", 1, true⟩], fun i => if i = 1 then (.int64, 7) else (.float16, 3)⟩

example : ((castToFloat32 (fun _ v => v) .float16 (fun s => (s, false)) tied).1.heap 0, (castToFloat32 (fun _ v => v) .float16 (fun s => (s, false)) tied).1.heap 1) =
    ((.float16, 3), (.int64, 7)) ∧ ((enter (fun _ v => v) tied).heap 0).1 = .float32 := by decide

example : castToFloat32 (fun _ v => v) .float16 (fun s => (s, true)) tied = (tied, true) :=
  C136_nothing_changes _ (fun _ _ => True) (fun _ _ _ => rfl) (fun _ _ _ _ => trivial) _ tied (by decide) (by decide) (fun _ _ => trivial) (by decide)

end Brevitas.Props
