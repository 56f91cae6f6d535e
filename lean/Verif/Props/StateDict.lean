import Verif.Spec.StateDict
import Mathlib.Tactic.SplitIfs
import Mathlib.Tactic.NormNum

/-!
# C141: checkpoints of quantised models
-/

namespace Brevitas.Props

open Brevitas.StateDict

open Brevitas.Spec Brevitas.Spec.Checkpoint

variable {V : Type}

/-! ## Helpers -/

private theorem deep_len (hid : Kind → String → Bool) : ∀ (m : Members) (q : List String) (i : ℕ), Deep hid m q i → 2 ≤ q.length := by
  intro m
  induction m with
  | nil => intro q i h; exact h.elim
  | tensor n j rest ih => exact ih
  | child n k sub rest ih1 ih2 =>
    intro q i h
    rcases h with ⟨x, rfl, -, -⟩ | ⟨q', rfl, h⟩ | h
    · simp
    · have := ih1 q' i h
      simp only [List.length_cons]
      omega
    · exact ih2 q i h

private theorem deep_mono {hid : Kind → String → Bool} : ∀ (m : Members) (q : List String) (i : ℕ), Deep hid m q i → Deep nothing m q i := by
  intro m
  induction m with
  | nil => intro q i h; exact h
  | tensor n j rest ih => exact ih
  | child n k sub rest ih1 ih2 =>
    intro q i h
    rcases h with ⟨x, h1, h2, -⟩ | ⟨q', h1, h2⟩ | h
    · exact .inl ⟨x, h1, h2, rfl⟩
    · exact .inr (.inl ⟨q', h1, ih1 q' i h2⟩)
    · exact .inr (.inr (ih2 q i h))

private theorem key_mono {hid : Kind → String → Bool} {m : Members} {q : List String} {i : ℕ} (h : Key hid m q i) : Key nothing m q i := h.imp id (deep_mono m q i)

private theorem mem_hide (full : Bool) (k : Kind) (p : List String) (d : List (List String × V)) (e : List String × V) :
    e ∈ hide full k p d ↔ e ∈ d ∧ ∀ x, e.1 = p ++ [x] → leftOut full k x = false := by
  cases k with
  | plain => simp [hide, leftOut]
  | stateless =>
    simp only [hide, leftOut, List.mem_filter, decide_eq_true_eq]
    refine and_congr_right fun _ => ⟨fun h x hx => ?_, fun h he => ?_⟩
    · by_contra hv
      have : x = "value" := by simpa using hv
      exact h (this ▸ hx)
    · have := h "value" he
      simp at this
  | tracked =>
    cases full
    · simp only [hide, leftOut, Bool.false_eq_true, if_false, List.mem_filter, decide_eq_true_eq, Bool.not_false, Bool.true_and]
      refine and_congr_right fun _ => ⟨fun h x hx => ?_, fun h he => ?_⟩
      · by_contra hv
        have : x = "parameter" := by simpa using hv
        exact h (this ▸ hx)
      · have := h "parameter" he
        simp at this
    · simp [hide, leftOut]

private theorem mem_save (full : Bool) (heap : ℕ → V) : ∀ (m : Members) (p : List String) (key : List String) (v : V),
    (key, v) ∈ save full heap m p ↔ ∃ q i, key = p ++ q ∧ Key (leftOut full) m q i ∧ v = heap i := by
  intro m
  induction m with
  | nil => intro p key v; simp [save, Key, Own, Deep]
  | tensor n j rest ih =>
    intro p key v
    simp only [save, List.mem_cons, Prod.mk.injEq, ih]
    constructor
    · rintro (⟨rfl, rfl⟩ | ⟨q, i, h1, h2, h3⟩)
      · exact ⟨[n], j, rfl, .inl ⟨n, rfl, .inl ⟨rfl, rfl⟩⟩, rfl⟩
      · refine ⟨q, i, h1, ?_, h3⟩
        rcases h2 with ⟨x, hx, ho⟩ | h2
        · exact .inl ⟨x, hx, .inr ho⟩
        · exact .inr h2
    · rintro ⟨q, i, h1, h2, h3⟩
      rcases h2 with ⟨x, hx, ⟨rfl, rfl⟩ | ho⟩ | h2
      · exact .inl ⟨by rw [h1, hx], h3⟩
      · exact .inr ⟨q, i, h1, .inl ⟨x, hx, ho⟩, h3⟩
      · exact .inr ⟨q, i, h1, .inr h2, h3⟩
  | child n k sub rest ih1 ih2 =>
    intro p key v
    simp only [save, List.mem_append, mem_hide, ih1, ih2]
    constructor
    · rintro (⟨⟨q, i, h1, h2, h3⟩, hh⟩ | ⟨q, i, h1, h2, h3⟩)
      · refine ⟨n :: q, i, by rw [h1]; simp, .inr ?_, h3⟩
        rcases h2 with ⟨x, rfl, ho⟩ | h2
        · exact .inl ⟨x, rfl, ho, hh x h1⟩
        · exact .inr (.inl ⟨q, rfl, h2⟩)
      · refine ⟨q, i, h1, ?_, h3⟩
        rcases h2 with ⟨x, hx, ho⟩ | h2
        · exact .inl ⟨x, hx, ho⟩
        · exact .inr (.inr (.inr h2))
    · rintro ⟨q, i, h1, h2, h3⟩
      rcases h2 with ⟨x, hx, ho⟩ | (⟨x, rfl, ho, hid⟩ | ⟨q', rfl, hd⟩ | h2)
      · exact .inr ⟨q, i, h1, .inl ⟨x, hx, ho⟩, h3⟩
      · refine .inl ⟨⟨[x], i, by rw [h1]; simp, .inl ⟨x, rfl, ho⟩, h3⟩, ?_⟩
        intro y hy
        rw [h1] at hy
        have : x = y := by simpa using hy
        exact this ▸ hid
      · refine .inl ⟨⟨q', i, by rw [h1]; simp, .inr hd, h3⟩, ?_⟩
        intro y hy
        rw [h1] at hy
        have hq : q' = [y] := by simpa using hy
        have := deep_len _ _ _ _ hd
        rw [hq] at this
        simp at this
      · exact .inr ⟨q, i, h1, .inr h2, h3⟩

private theorem find_mem {d : List (List String × V)} {key : List String} {v : V} (h : find d key = some v) : (key, v) ∈ d := by
  induction d with
  | nil => simp [find] at h
  | cons e d ih =>
    unfold find at h
    split_ifs at h with he
    · rw [← he, ← Option.some.inj h]; exact List.mem_cons_self
    · exact List.mem_cons_of_mem _ (ih h)

private theorem find_none {d : List (List String × V)} {key : List String} (h : find d key = none) (v : V) : (key, v) ∉ d := by
  induction d with
  | nil => simp
  | cons e d ih =>
    unfold find at h
    split_ifs at h with he
    intro hm
    rcases List.mem_cons.mp hm with rfl | hm
    · exact he rfl
    · exact ih h hm

private theorem own_unique : ∀ (m : Members), Wf m → ∀ x i j, Own m x i → Own m x j → i = j := by
  intro m
  induction m with
  | nil => intro _ x i j h; exact h.elim
  | tensor n l rest ih =>
    intro hw x i j h1 h2
    rcases h1 with ⟨rfl, rfl⟩ | h1 <;> rcases h2 with ⟨h3, h4⟩ | h2
    · exact h4.symm
    · exact (hw.1 _ h2).elim
    · exact (hw.1 i (h3 ▸ h1)).elim
    · exact ih hw.2 x i j h1 h2
  | child n k sub rest ih1 ih2 => exact fun hw => ih2 hw.2.1

private theorem deep_unique : ∀ (m : Members), Wf m → ∀ q i j, Deep nothing m q i → Deep nothing m q j → i = j := by
  intro m
  induction m with
  | nil => intro _ q i j h; exact h.elim
  | tensor n l rest ih => exact fun hw => ih hw.2
  | child n k sub rest ih1 ih2 =>
    intro hw q i j h1 h2
    rcases h1 with ⟨x, rfl, ho, -⟩ | ⟨q', rfl, hd⟩ | h1
    · rcases h2 with ⟨y, hy, ho', -⟩ | ⟨q', hq, hd'⟩ | h2
      · have : x = y := by simpa using hy
        subst this
        exact own_unique sub hw.1 x i j ho ho'
      · have hq' : q' = [x] := by simpa using hq.symm
        have := deep_len _ _ _ _ hd'
        rw [hq'] at this
        simp at this
      · exact (hw.2.2 _ _ h2).elim
    · rcases h2 with ⟨y, hy, ho', -⟩ | ⟨q'', hq, hd'⟩ | h2
      · have hq' : q' = [y] := by simpa using hy
        have := deep_len _ _ _ _ hd
        rw [hq'] at this
        simp at this
      · have : q' = q'' := by simpa using hq
        subst this
        exact ih1 hw.1 q' i j hd hd'
      · exact (hw.2.2 _ _ h2).elim
    · rcases h2 with ⟨y, rfl, -, -⟩ | ⟨q'', rfl, -⟩ | h2
      · exact (hw.2.2 _ _ h1).elim
      · exact (hw.2.2 _ _ h1).elim
      · exact ih2 hw.2.1 q i j h1 h2

private theorem key_unique (m : Members) (hw : Wf m) (q : List String) (i j : ℕ) (h1 : Key nothing m q i) (h2 : Key nothing m q j) : i = j := by
  rcases h1 with ⟨x, rfl, h1⟩ | h1 <;> rcases h2 with ⟨y, hy, h2⟩ | h2
  · have : x = y := by simpa using hy
    subst this
    exact own_unique m hw x i j h1 h2
  · have := deep_len _ _ _ _ h2; simp at this
  · subst hy; have := deep_len _ _ _ _ h1; simp at this
  · exact deep_unique m hw q i j h1 h2

/-- Where a load with consistent values leaves the tensors. -/
private def Target (h₁ : ℕ → V) (found : ℕ → Prop) (before after : ℕ → V) : Prop := ∀ i, (found i → after i = h₁ i) ∧ (¬found i → after i = before i)

private theorem Target.comp {h₁ : ℕ → V} {f g : ℕ → Prop} {a b c : ℕ → V} (h : Target h₁ f a b) (h' : Target h₁ g b c) : Target h₁ (fun i => f i ∨ g i) a c := by
  intro i
  by_cases hg : g i
  · exact ⟨fun _ => (h' i).1 hg, fun hn => (hn (.inr hg)).elim⟩
  · refine ⟨fun hf => ?_, fun hn => ?_⟩
    · rw [(h' i).2 hg]; exact (h i).1 (hf.resolve_right hg)
    · rw [(h' i).2 hg]; exact (h i).2 fun hf => hn (.inl hf)

private theorem Target.congr {h₁ : ℕ → V} {f g : ℕ → Prop} {a b : ℕ → V} (h : Target h₁ f a b) (hfg : ∀ i, f i ↔ g i) : Target h₁ g a b :=
  fun i => ⟨fun hg => (h i).1 ((hfg i).mpr hg), fun hn => (h i).2 fun hf => hn ((hfg i).mp hf)⟩

private theorem loadOwn_spec (h₁ : ℕ → V) (d : List (List String × V)) : ∀ (m : Members) (p : List String) (heap : ℕ → V),
    (∀ x i v, Own m x i → find d (p ++ [x]) = some v → v = h₁ i) → Target h₁ (fun i => ∃ x, Own m x i ∧ (find d (p ++ [x])).isSome) heap (loadOwn d m p heap) := by
  intro m
  induction m with
  | nil => intro p heap _ i; exact ⟨fun ⟨x, h, _⟩ => h.elim, fun _ => rfl⟩
  | tensor n j rest ih =>
    intro p heap hc
    have h2 := ih p (match find d (p ++ [n]) with | some v => Function.update heap j v | none => heap) fun x i v ho => hc x i v (.inr ho)
    have h1 : Target h₁ (fun i => i = j ∧ (find d (p ++ [n])).isSome) heap (match find d (p ++ [n]) with | some v => Function.update heap j v | none => heap) := by
      cases hf : find d (p ++ [n]) with
      | none => intro i; simp
      | some v =>
        intro i
        by_cases hi : i = j
        · subst hi
          simp [hc n i v (.inl ⟨rfl, rfl⟩) hf]
        · simp [hi]
    refine (h1.comp h2).congr fun i => ?_
    constructor
    · rintro (⟨rfl, h⟩ | ⟨x, ho, h⟩)
      · exact ⟨n, .inl ⟨rfl, rfl⟩, h⟩
      · exact ⟨x, .inr ho, h⟩
    · rintro ⟨x, ⟨rfl, rfl⟩ | ho, h⟩
      · exact .inl ⟨rfl, h⟩
      · exact .inr ⟨x, ho, h⟩
  | child n k sub rest ih1 ih2 => exact ih2

private theorem loadChildren_spec (h₁ : ℕ → V) (d : List (List String × V)) : ∀ (m : Members) (p : List String) (heap : ℕ → V),
    (∀ q i v, Deep nothing m q i → find d (p ++ q) = some v → v = h₁ i) → Target h₁ (fun i => ∃ q, Deep nothing m q i ∧ (find d (p ++ q)).isSome) heap (loadChildren d m p heap) := by
  intro m
  induction m with
  | nil => intro p heap _ i; exact ⟨fun ⟨x, h, _⟩ => h.elim, fun _ => rfl⟩
  | tensor n j rest ih => exact ih
  | child n k sub rest ih1 ih2 =>
    intro p heap hc
    have h1 := loadOwn_spec h₁ d sub (p ++ [n]) heap fun x i v ho hf => hc [n, x] i v (.inl ⟨x, rfl, ho, rfl⟩) (by simpa using hf)
    have h2 := ih1 (p ++ [n]) (loadOwn d sub (p ++ [n]) heap) fun q i v hd hf => hc (n :: q) i v (.inr (.inl ⟨q, rfl, hd⟩)) (by simpa using hf)
    have h3 := ih2 p (loadChildren d sub (p ++ [n]) (loadOwn d sub (p ++ [n]) heap)) fun q i v hd hf => hc q i v (.inr (.inr hd)) hf
    refine ((h1.comp h2).comp h3).congr fun i => ?_
    constructor
    · rintro ((⟨x, ho, h⟩ | ⟨q, hd, h⟩) | ⟨q, hd, h⟩)
      · exact ⟨[n, x], .inl ⟨x, rfl, ho, rfl⟩, by simpa using h⟩
      · exact ⟨n :: q, .inr (.inl ⟨q, rfl, hd⟩), by simpa using h⟩
      · exact ⟨q, .inr (.inr hd), h⟩
    · rintro ⟨q, ⟨x, rfl, ho, -⟩ | ⟨q', rfl, hd⟩ | hd, h⟩
      · exact .inl (.inl ⟨x, ho, by simpa using h⟩)
      · exact .inl (.inr ⟨q', hd, by simpa using h⟩)
      · exact .inr ⟨q, hd, h⟩

private theorem mem_missingOwn (d : List (List String × V)) : ∀ (m : Members) (p key : List String), key ∈ missingOwn d m p ↔ ∃ x i, Own m x i ∧ key = p ++ [x] ∧ find d key = none := by
  intro m
  induction m with
  | nil => intro p key; simp [missingOwn, Own]
  | tensor n j rest ih =>
    intro p key
    simp only [missingOwn, List.mem_append, ih]
    constructor
    · rintro (h | ⟨x, i, ho, h⟩)
      · split_ifs at h with hn
        · have hk : key = p ++ [n] := by simpa using h
          exact ⟨n, j, .inl ⟨rfl, rfl⟩, hk, by rw [hk]; simpa using hn⟩
        · simp at h
      · exact ⟨x, i, .inr ho, h⟩
    · rintro ⟨x, i, ⟨rfl, rfl⟩ | ho, hk, hf⟩
      · refine .inl ?_
        rw [hk] at hf
        simp [hf, hk]
      · exact .inr ⟨x, i, ho, hk, hf⟩
  | child n k sub rest ih1 ih2 => exact ih2

private theorem mem_forgive (k : Kind) (p : List String) (l : List (List String)) (e : List String) : e ∈ forgive k p l ↔ e ∈ l ∧ ∀ x, e = p ++ [x] → leftOut false k x = false := by
  cases k with
  | plain => simp [forgive, leftOut]
  | stateless =>
    simp only [forgive, leftOut, List.mem_filter, decide_eq_true_eq]
    refine and_congr_right fun _ => ⟨fun h x hx => ?_, fun h he => ?_⟩
    · by_contra hv
      have : x = "value" := by simpa using hv
      exact h (this ▸ hx)
    · have := h "value" he
      simp at this
  | tracked =>
    simp only [forgive, leftOut, List.mem_filter, decide_eq_true_eq, Bool.not_false, Bool.true_and]
    refine and_congr_right fun _ => ⟨fun h x hx => ?_, fun h he => ?_⟩
    · by_contra hv
      have : x = "parameter" := by simpa using hv
      exact h (this ▸ hx)
    · have := h "parameter" he
      simp at this

private theorem mem_missingChildren (d : List (List String × V)) : ∀ (m : Members) (p key : List String),
    key ∈ missingChildren d m p ↔ ∃ q i, Deep (leftOut false) m q i ∧ key = p ++ q ∧ find d key = none := by
  intro m
  induction m with
  | nil => intro p key; simp [missingChildren, Deep]
  | tensor n j rest ih => exact ih
  | child n k sub rest ih1 ih2 =>
    intro p key
    simp only [missingChildren, List.mem_append, mem_forgive, mem_missingOwn, ih1, ih2]
    constructor
    · rintro ((⟨⟨x, i, ho, hk, hf⟩, hh⟩ | ⟨q, i, hd, hk, hf⟩) | ⟨q, i, hd, hk, hf⟩)
      · exact ⟨[n, x], i, .inl ⟨x, rfl, ho, hh x hk⟩, by rw [hk]; simp, hf⟩
      · exact ⟨n :: q, i, .inr (.inl ⟨q, rfl, hd⟩), by rw [hk]; simp, hf⟩
      · exact ⟨q, i, .inr (.inr hd), hk, hf⟩
    · rintro ⟨q, i, ⟨x, rfl, ho, hid⟩ | ⟨q', rfl, hd⟩ | hd, hk, hf⟩
      · refine .inl (.inl ⟨⟨x, i, ho, by rw [hk]; simp, hf⟩, fun y hy => ?_⟩)
        rw [hk] at hy
        have : x = y := by simpa using hy
        exact this ▸ hid
      · exact .inl (.inr ⟨q', i, hd, by rw [hk]; simp, hf⟩)
      · exact .inr ⟨q, i, hd, hk, hf⟩

private theorem expected_own : ∀ (m : Members) (x : String) (i : ℕ), Own m x i → expected m [x] = true := by
  intro m
  induction m with
  | nil => intro x i h; exact h.elim
  | tensor n j rest ih =>
    intro x i h
    rcases h with ⟨rfl, rfl⟩ | h
    · simp [expected]
    · simp [expected, ih x i h]
  | child n k sub rest ih1 ih2 =>
    intro x i h
    simp [expected, ih2 x i h]

private theorem expected_deep : ∀ (m : Members) (q : List String) (i : ℕ), Deep nothing m q i → expected m q = true := by
  intro m
  induction m with
  | nil => intro q i h; exact h.elim
  | tensor n j rest ih =>
    intro q i h
    simp [expected, ih q i h]
  | child n k sub rest ih1 ih2 =>
    intro q i h
    rcases h with ⟨x, rfl, ho, -⟩ | ⟨q', rfl, hd⟩ | h
    · simp [expected, expected_own sub x i ho]
    · simp [expected, ih1 q' i hd]
    · simp [expected, ih2 q i h]

private theorem expected_key {m : Members} {q : List String} {i : ℕ} (h : Key nothing m q i) : expected m q = true := by
  rcases h with ⟨x, rfl, h⟩ | h
  · exact expected_own m x i h
  · exact expected_deep m q i h

private theorem expected_conv : ∀ (m : Members) (q : List String), expected m q = true → ∃ i, Key nothing m q i := by
  intro m
  induction m with
  | nil => intro q h; simp [expected] at h
  | tensor n j rest ih =>
    intro q h
    simp only [expected, Bool.or_eq_true, beq_iff_eq] at h
    rcases h with rfl | h
    · exact ⟨j, .inl ⟨n, rfl, .inl ⟨rfl, rfl⟩⟩⟩
    · obtain ⟨i, ⟨x, hx, ho⟩ | hd⟩ := ih q h
      · exact ⟨i, .inl ⟨x, hx, .inr ho⟩⟩
      · exact ⟨i, .inr hd⟩
  | child n k sub rest ih1 ih2 =>
    intro q h
    simp only [expected, Bool.or_eq_true, Bool.and_eq_true, beq_iff_eq] at h
    rcases h with ⟨h1, h2⟩ | h
    · cases q with
      | nil => simp at h1
      | cons x q' =>
        have hx : x = n := by simpa using h1
        subst hx
        obtain ⟨i, ⟨y, hy, ho⟩ | hd⟩ := ih1 q' h2
        · exact ⟨i, .inr (.inl ⟨y, by rw [hy], ho, rfl⟩)⟩
        · exact ⟨i, .inr (.inr (.inl ⟨q', rfl, hd⟩))⟩
    · obtain ⟨i, ⟨x, hx, ho⟩ | hd⟩ := ih2 q h
      · exact ⟨i, .inl ⟨x, hx, ho⟩⟩
      · exact ⟨i, .inr (.inr (.inr hd))⟩

/-! ## C141 -/

/-- C141: a checkpoint has exactly the tensors of the model under their keys, except for constants and (unless full checkpoints are asked for) tracked parameters. -/
theorem C141_contents (full : Bool) (heap : ℕ → V) (m : Members) (key : List String) (v : V) :
    (key, v) ∈ save full heap m [] ↔ ∃ i, Key (leftOut full) m key i ∧ v = heap i := by
  rw [mem_save]
  constructor
  · rintro ⟨q, i, rfl, h1, h2⟩
    exact ⟨i, h1, h2⟩
  · rintro ⟨i, h1, h2⟩
    exact ⟨key, i, rfl, h1, h2⟩

/-- A layer: a weight (tensor 0) that the statistics of its scale track, a bit width that is a constant (tensor 1), and a learned scale (tensor 2). -/
private def layer : Members :=
  .tensor "weight" 0 (.child "weight_quant" .plain
    (.child "stats" .tracked (.tensor "parameter" 0 .nil) (.child "bit_width" .stateless (.tensor "value" 1 .nil) (.child "scaling" .plain (.tensor "value" 2 .nil) .nil))) .nil)

/-- The weight and the learned scale are saved; with full checkpoints the weight is there twice. -/
example : save false (fun i => i + 10) layer [] = [(["weight"], 10), (["weight_quant", "scaling", "value"], 12)] := by decide +kernel

example : save true (fun i => i + 10) layer [] = [(["weight"], 10), (["weight_quant", "stats", "parameter"], 10), (["weight_quant", "scaling", "value"], 12)] := by decide +kernel

/-- C141: a checkpoint, full or not, loads into a model of the same structure without complaints. Every tensor with a key in it gets its value, also where it is used under other names;
all others, such as constants, stay as they are. -/
theorem C141_round_trip (full : Bool) (h₁ h₂ : ℕ → V) (m : Members) (hw : Wf m) :
    let r := load m (save full h₁ m []) h₂
    r.2 = true ∧ ∀ i, ((∃ key, Key (leftOut full) m key i) → r.1 i = h₁ i) ∧ ((¬∃ key, Key (leftOut full) m key i) → r.1 i = h₂ i) := by
  intro r
  have hfound : ∀ key, (find (save full h₁ m []) key).isSome ↔ ∃ i, Key (leftOut full) m key i := by
    intro key
    constructor
    · intro h
      obtain ⟨v, hv⟩ := Option.isSome_iff_exists.mp h
      obtain ⟨i, hi, -⟩ := (C141_contents full h₁ m key v).mp (find_mem hv)
      exact ⟨i, hi⟩
    · rintro ⟨i, hi⟩
      by_contra h
      exact find_none (by simpa using h) (h₁ i) ((C141_contents full h₁ m key (h₁ i)).mpr ⟨i, hi, rfl⟩)
  have hcons : ∀ key i v, Key nothing m key i → find (save full h₁ m []) key = some v → v = h₁ i := by
    intro key i v hk hf
    obtain ⟨j, hj, hv⟩ := (C141_contents full h₁ m key v).mp (find_mem hf)
    rw [hv, key_unique m hw key i j hk (key_mono hj)]
  refine ⟨?_, fun i => ?_⟩
  · show ((missingOwn _ m [] ++ missingChildren _ m []).isEmpty && _) = true
    rw [Bool.and_eq_true]
    constructor
    · rw [List.isEmpty_iff, List.eq_nil_iff_forall_not_mem]
      intro key hkey
      have hnone : find (save full h₁ m []) key = none ∧ ∃ i, Key (leftOut false) m key i := by
        rcases List.mem_append.mp hkey with h | h
        · obtain ⟨x, i, ho, hk, hf⟩ := (mem_missingOwn _ m [] key).mp h
          exact ⟨hf, i, .inl ⟨x, hk, ho⟩⟩
        · obtain ⟨q, i, hd, hk, hf⟩ := (mem_missingChildren _ m [] key).mp h
          have hk : key = q := hk
          exact ⟨hf, i, .inr (hk ▸ hd)⟩
      obtain ⟨hn, i, hi⟩ := hnone
      have hle : Key (leftOut full) m key i := by
        cases full
        · exact hi
        · refine hi.imp id ?_
          clear hkey hn hi hcons hfound r hw
          revert key i
          induction m with
          | nil => intro q i h; exact h
          | tensor n j rest ih => exact ih
          | child n k sub rest ih1 ih2 =>
            intro q i h
            rcases h with ⟨x, h1, h2, h3⟩ | ⟨q', h1, h2⟩ | h
            · refine .inl ⟨x, h1, h2, ?_⟩
              cases k
              · rfl
              · exact h3
              · rfl
            · exact .inr (.inl ⟨q', h1, ih1 q' i h2⟩)
            · exact .inr (.inr (ih2 q i h))
      have := (hfound key).mpr ⟨i, hle⟩
      rw [hn] at this
      simp at this
    · rw [List.all_eq_true]
      intro e he
      obtain ⟨i, hi, -⟩ := (C141_contents full h₁ m e.1 e.2).mp he
      exact expected_key (key_mono hi)
  · have t1 := loadOwn_spec h₁ (save full h₁ m []) m [] h₂ fun x i v ho hf => hcons [x] i v (.inl ⟨x, rfl, ho⟩) hf
    have t2 := loadChildren_spec h₁ (save full h₁ m []) m [] (loadOwn (save full h₁ m []) m [] h₂) fun q i v hd hf => hcons q i v (.inr hd) hf
    refine ((t1.comp t2).congr (g := fun i => ∃ key, Key (leftOut full) m key i) fun i => ?_) i
    constructor
    · rintro (⟨x, ho, h⟩ | ⟨q, hd, h⟩)
      · obtain ⟨j, hj⟩ := (hfound [x]).mp h
        have := key_unique m hw [x] i j (.inl ⟨x, rfl, ho⟩) (key_mono hj)
        exact ⟨[x], this ▸ hj⟩
      · obtain ⟨j, hj⟩ := (hfound q).mp h
        have := key_unique m hw q i j (.inr hd) (key_mono hj)
        exact ⟨q, this ▸ hj⟩
    · rintro ⟨key, hk⟩
      have hs := (hfound key).mpr ⟨i, hk⟩
      rcases key_mono hk with ⟨x, rfl, ho⟩ | hd
      · exact .inl ⟨x, ho, hs⟩
      · exact .inr ⟨key, hd, hs⟩

/-- The names in the layer are distinct. -/
example : Wf layer := by simp [layer, Wf, Own, Deep]

/-- The statistics see the weight that is loaded, the bit width is kept. -/
example : ((load layer (save false (fun i => i + 10) layer []) fun i => i).2, (List.range 3).map (load layer (save false (fun i => i + 10) layer []) fun i => i).1) = (true, [10, 1, 12]) := by
  decide +kernel

/-- C141, other checkpoints, such as those of the float model: the missing keys are those of ordinary tensors that are not there. Constants and tracked parameters are never missing. -/
theorem C141_missing (m : Members) (d : List (List String × V)) (key : List String) :
    key ∈ missingOwn d m [] ++ missingChildren d m [] ↔ (∃ i, Key (leftOut false) m key i) ∧ ∀ v, (key, v) ∉ d := by
  have hd : find d key = none ↔ ∀ v, (key, v) ∉ d := by
    refine ⟨find_none, fun h => ?_⟩
    by_contra hne
    obtain ⟨v, hv⟩ := Option.ne_none_iff_exists'.mp hne
    exact h v (find_mem hv)
  rw [List.mem_append, mem_missingOwn, mem_missingChildren, ← hd]
  constructor
  · rintro (⟨x, i, ho, hk, hf⟩ | ⟨q, i, hdp, hk, hf⟩)
    · exact ⟨⟨i, .inl ⟨x, hk, ho⟩⟩, hf⟩
    · have hk : key = q := hk
      exact ⟨⟨i, .inr (hk ▸ hdp)⟩, hf⟩
  · rintro ⟨⟨i, ⟨x, hk, ho⟩ | hdp⟩, hf⟩
    · exact .inl ⟨x, i, ho, hk, hf⟩
    · exact .inr ⟨key, i, hdp, rfl, hf⟩

/-- With the checkpoint of the float layer only the learned scale is missing. -/
example : missingOwn [(["weight"], 5)] layer [] ++ missingChildren [(["weight"], 5)] layer [] = [["weight_quant", "scaling", "value"]] := by decide +kernel

/-- C141, errors: loading raises no error if and only if every ordinary tensor has its key in the checkpoint, and every key in the checkpoint is that of a tensor of the model (constants and
tracked parameters included). -/
theorem C141_errors (m : Members) (d : List (List String × V)) (heap : ℕ → V) :
    (load m d heap).2 = true ↔ (∀ key i, Key (leftOut false) m key i → ∃ v, (key, v) ∈ d) ∧ ∀ key v, (key, v) ∈ d → ∃ i, Key nothing m key i := by
  show ((missingOwn d m [] ++ missingChildren d m []).isEmpty && _) = true ↔ _
  rw [Bool.and_eq_true, List.isEmpty_iff, List.eq_nil_iff_forall_not_mem, List.all_eq_true]
  refine and_congr ?_ ?_
  · constructor
    · intro h key i hk
      by_contra hn
      exact h key ((C141_missing m d key).mpr ⟨⟨i, hk⟩, fun v hv => hn ⟨v, hv⟩⟩)
    · intro h key hm
      obtain ⟨⟨i, hi⟩, hv⟩ := (C141_missing m d key).mp hm
      obtain ⟨v, hv'⟩ := h key i hi
      exact hv v hv'
  · constructor
    · exact fun h key v hv => expected_conv m key (h (key, v) hv)
    · intro h e he
      obtain ⟨i, hi⟩ := h e.1 e.2 he
      exact expected_key hi

/-- The checkpoint of the float layer, and one with a key that the layer does not have, are refused. -/
example : (load layer [(["weight"], 5)] fun i => i).2 = false ∧ (load layer [(["weight"], 5), (["weight_quant", "scaling", "value"], 6), (["bias"], 7)] fun i => i).2 = false := by
  decide +kernel

/-- C141, any checkpoint that does not contradict itself: tensors with a key in it get the value, constants too. The others stay. -/
theorem C141_any_checkpoint (m : Members) (d : List (List String × V)) (heap : ℕ → V)
    (hd : ∀ key key' v v' i, Key nothing m key i → Key nothing m key' i → (key, v) ∈ d → (key', v') ∈ d → v = v') (i : ℕ) :
    (∀ key v, Key nothing m key i → (key, v) ∈ d → (load m d heap).1 i = v) ∧ ((∀ key v, Key nothing m key i → (key, v) ∉ d) → (load m d heap).1 i = heap i) := by
  classical
  let h₁ : ℕ → V := fun i => if h : ∃ v key, Key nothing m key i ∧ (key, v) ∈ d then h.choose else heap i
  have hh : ∀ key i v, Key nothing m key i → (key, v) ∈ d → v = h₁ i := by
    intro key i v hk hv
    have hex : ∃ v key, Key nothing m key i ∧ (key, v) ∈ d := ⟨v, key, hk, hv⟩
    have h1 : h₁ i = hex.choose := dif_pos hex
    obtain ⟨key', hk', hv'⟩ := hex.choose_spec
    rw [h1]
    exact hd key key' v _ i hk hk' hv hv'
  have t1 := loadOwn_spec h₁ d m [] heap fun x i v ho hf => hh [x] i v (.inl ⟨x, rfl, ho⟩) (find_mem hf)
  have t2 := loadChildren_spec h₁ d m [] (loadOwn d m [] heap) fun q i v hq hf => hh q i v (.inr hq) (find_mem hf)
  have t := (t1.comp t2) i
  constructor
  · intro key v hk hv
    rw [hh key i v hk hv]
    have hs : (find d key).isSome := by
      by_contra hn
      exact find_none (by simpa using hn) v hv
    refine t.1 ?_
    rcases hk with ⟨x, rfl, ho⟩ | hq
    · exact .inl ⟨x, ho, hs⟩
    · exact .inr ⟨key, hq, hs⟩
  · intro hn
    refine t.2 ?_
    rintro (⟨x, ho, hs⟩ | ⟨q, hq, hs⟩)
    · obtain ⟨v, hv⟩ := Option.isSome_iff_exists.mp hs
      exact hn [x] v (.inl ⟨x, rfl, ho⟩) (find_mem hv)
    · obtain ⟨v, hv⟩ := Option.isSome_iff_exists.mp hs
      exact hn q v (.inr hq) (find_mem hv)

/-- A checkpoint that has the bit width overwrites it. -/
example : (List.range 3).map (load layer [(["weight"], 5), (["weight_quant", "bit_width", "value"], 6), (["weight_quant", "scaling", "value"], 7)] fun i => i).1 = [5, 6, 7] := by decide +kernel

end Brevitas.Props
