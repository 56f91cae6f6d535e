import Verif.Model.Gpxq
import Verif.Spec.Gpxq
import Mathlib.Tactic.Ring
import Mathlib.Tactic.FieldSimp
import Mathlib.Tactic.Linarith
import Mathlib.Algebra.Order.BigOperators.Ring.Finset
import Mathlib.Data.List.Induction
import Mathlib.Algebra.BigOperators.Ring.List
import Mathlib.Algebra.BigOperators.Group.List.Basic

/-! Helper lemmas about the model of GPTQ and GPFQ. -/

set_option linter.unusedSectionVars false

namespace Brevitas

section Gptq

variable {K : Type*} [Field K] [LinearOrder K] {ρ : Type*}

theorem subColumns_other (perm : ℕ → ℕ) (js : List ℕ) (d : ρ → ℕ → K) (W : ρ → ℕ → K) (r : ρ)
    (c : ℕ) (hc : ∀ j ∈ js, perm j ≠ c) : subColumns perm js d W r c = W r c := by
  induction js generalizing W with
  | nil => rfl
  | cons a l ih =>
    have h1 : ∀ j ∈ l, perm j ≠ c := fun j hj => hc j (List.mem_cons_of_mem _ hj)
    have h2 : perm a ≠ c := hc a List.mem_cons_self
    have := ih (fun r c => if c = perm a then W r c - d r a else W r c) h1
    unfold subColumns at this ⊢
    rw [List.foldl_cons, this, if_neg (fun h => h2 h.symm)]

theorem subColumns_mem (perm : ℕ → ℕ) (js : List ℕ) (d : ρ → ℕ → K) (W : ρ → ℕ → K) (r : ρ)
    (hnd : js.Nodup) (hinj : ∀ i ∈ js, ∀ j ∈ js, perm i = perm j → i = j) (j : ℕ) (hj : j ∈ js) :
    subColumns perm js d W r (perm j) = W r (perm j) - d r j := by
  induction js generalizing W with
  | nil => simp at hj
  | cons a l ih =>
    have hnd' := List.nodup_cons.mp hnd
    rcases List.mem_cons.mp hj with rfl | hj'
    · have hoth : ∀ i ∈ l, perm i ≠ perm j := fun i hi he => by
        have := hinj i (List.mem_cons_of_mem _ hi) j List.mem_cons_self he
        exact hnd'.1 (this ▸ hi)
      have := subColumns_other perm l d
        (fun r c => if c = perm j then W r c - d r j else W r c) r (perm j) hoth
      unfold subColumns at this ⊢
      rw [List.foldl_cons, this, if_pos rfl]
    · have hne : perm j ≠ perm a := fun he => by
        have := hinj j hj a List.mem_cons_self he
        exact hnd'.1 (this ▸ hj')
      have := ih (fun r c => if c = perm a then W r c - d r a else W r c) hnd'.2
        (fun i hi k hk => hinj i (List.mem_cons_of_mem _ hi) k (List.mem_cons_of_mem _ hk)) hj'
      unfold subColumns at this ⊢
      rw [List.foldl_cons, this, if_neg hne]

/-- What has been established once the positions below `p` have been processed, in a block that
starts at `i1` and ends at `i2`. -/
structure GptqInv (n : ℕ) (h : ℕ → ℕ → K) (perm : ℕ → ℕ) (quant : (ρ → ℕ → K) → ℕ → ρ → K)
    (W0 : ρ → ℕ → K) (i1 i2 p : ℕ) (W : ρ → ℕ → K) (S : ℕ → ρ → ℕ → K) (e : ρ → ℕ → K) :
    Prop where
  seen : ∀ i, i < p → ∀ r, S i r (perm i) = W0 r (perm i) - ∑ k ∈ Finset.range i, e r k * h k i
  errs : ∀ i, i < p → ∀ r, e r i = (S i r (perm i) - quant (S i) (perm i) r) / h i i
  done : ∀ i, i < p → ∀ r, W r (perm i) = quant (S i) (perm i) r
  cur : ∀ j, p ≤ j → j < i2 → ∀ r,
    W r (perm j) = W0 r (perm j) - ∑ k ∈ Finset.range p, e r k * h k j
  later : ∀ j, i2 ≤ j → j < n → ∀ r,
    W r (perm j) = W0 r (perm j) - ∑ k ∈ Finset.range i1, e r k * h k j
  out : ∀ c, (∀ i, i < n → perm i ≠ c) → ∀ r, W r c = W0 r c

theorem gptq_column_inv {n : ℕ} {h : ℕ → ℕ → K} {perm : ℕ → ℕ}
    {quant : (ρ → ℕ → K) → ℕ → ρ → K} {W0 : ρ → ℕ → K} {i1 i2 p : ℕ} {st : GptqState ρ K}
    {S : ℕ → ρ → ℕ → K} {e : ρ → ℕ → K}
    (hinj : ∀ i, i < n → ∀ j, j < n → perm i = perm j → i = j) (hh : ∀ i, i < n → h i i ≠ 0)
    (h1 : i1 ≤ p) (h2 : p < i2) (h3 : i2 ≤ n)
    (inv : GptqInv n h perm quant W0 i1 i2 p st.W S e)
    (hE : ∀ i, i1 ≤ i → i < p → ∀ r, st.E r i = e r i) :
    ∃ S' e', GptqInv n h perm quant W0 i1 i2 (p + 1)
        (gptqColumnStep h perm quant i2 st p).W S' e' ∧
      (∀ i, i1 ≤ i → i < p + 1 → ∀ r, (gptqColumnStep h perm quant i2 st p).E r i = e' r i) ∧
      (∀ i, i < p → ∀ r, e' r i = e r i) := by
  have hpn : p < n := lt_of_lt_of_le h2 h3
  set er : ρ → K := fun r => (st.W r (perm p) - quant st.W (perm p) r) / h p p with her
  set e' : ρ → ℕ → K := fun r i => if i = p then er r else e r i with he'
  have hsum : ∀ (m : ℕ), m ≤ p → ∀ (r : ρ) (j : ℕ),
      ∑ k ∈ Finset.range m, e' r k * h k j = ∑ k ∈ Finset.range m, e r k * h k j := by
    intro m hm r j
    refine Finset.sum_congr rfl fun k hk => ?_
    have : k ≠ p := by have := Finset.mem_range.mp hk; omega
    simp [he', this]
  have hmem : ∀ j, j ∈ List.range' p (i2 - p) ↔ p ≤ j ∧ j < i2 := by
    intro j; rw [List.mem_range'_1]; omega
  have hsub : ∀ j, p ≤ j → j < i2 → ∀ r,
      (gptqColumnStep h perm quant i2 st p).W r (perm j) = st.W r (perm j) - er r * h p j := by
    intro j hj1 hj2 r
    unfold gptqColumnStep
    exact subColumns_mem perm _ _ _ r (List.nodup_range')
      (fun a ha b hb => hinj a (by have := (hmem a).mp ha; omega) b
        (by have := (hmem b).mp hb; omega)) j ((hmem j).mpr ⟨hj1, hj2⟩)
  have hkeep : ∀ j, j < n → (j < p ∨ i2 ≤ j) → ∀ r,
      (gptqColumnStep h perm quant i2 st p).W r (perm j) = st.W r (perm j) := by
    intro j hj hj2 r
    unfold gptqColumnStep
    refine subColumns_other perm _ _ _ r _ fun a ha he => ?_
    have ha' := (hmem a).mp ha
    have := hinj a (by omega) j hj he
    omega
  have hcurp : ∀ r, st.W r (perm p) = W0 r (perm p) - ∑ k ∈ Finset.range p, e r k * h k p :=
    inv.cur p le_rfl h2
  refine ⟨fun i => if i = p then st.W else S i, e', ⟨?_, ?_, ?_, ?_, ?_, ?_⟩, ?_, ?_⟩
  · intro i hi r
    rw [hsum i (by omega) r i]
    by_cases hip : i = p
    · subst hip
      simp only [if_true]
      exact hcurp r
    · simp only [if_neg hip]
      exact inv.seen i (by omega) r
  · intro i hi r
    by_cases hip : i = p
    · subst hip
      simp only [he', if_true, her]
    · simp only [he', if_neg hip]
      exact inv.errs i (by omega) r
  · intro i hi r
    by_cases hip : i = p
    · subst hip
      simp only [if_true]
      rw [hsub i le_rfl h2 r]
      have := hh i hpn
      simp only [her]
      field_simp
      ring
    · simp only [if_neg hip]
      rw [hkeep i (by omega) (Or.inl (by omega)) r]
      exact inv.done i (by omega) r
  · intro j hj1 hj2 r
    rw [hsub j (by omega) hj2 r, inv.cur j (by omega) hj2 r, Finset.sum_range_succ,
      hsum p le_rfl r j]
    simp only [he', if_true]
    ring
  · intro j hj1 hj2 r
    rw [hkeep j hj2 (Or.inr hj1) r, inv.later j hj1 hj2 r, hsum i1 h1 r j]
  · intro c hc r
    unfold gptqColumnStep
    have := subColumns_other perm (List.range' p (i2 - p))
      (fun r j => ((st.W r (perm p) - quant st.W (perm p) r) / h p p) * h p j) st.W r c
      (fun a ha => hc a (by have := (hmem a).mp ha; omega))
    exact this.trans (inv.out c hc r)
  · intro i hi1 hi2 r
    by_cases hip : i = p
    · subst hip; simp [gptqColumnStep, he', her]
    · simp only [gptqColumnStep, he', if_neg hip]
      exact hE i hi1 (by omega) r
  · intro i hi r
    have : i ≠ p := by omega
    simp [he', this]

theorem gptq_block_inv {n : ℕ} {h : ℕ → ℕ → K} {perm : ℕ → ℕ}
    {quant : (ρ → ℕ → K) → ℕ → ρ → K} {W0 W : ρ → ℕ → K} {i1 bs : ℕ}
    {S : ℕ → ρ → ℕ → K} {e : ρ → ℕ → K}
    (hinj : ∀ i, i < n → ∀ j, j < n → perm i = perm j → i = j) (hh : ∀ i, i < n → h i i ≠ 0)
    (h1 : i1 ≤ n)
    (inv : GptqInv n h perm quant W0 i1 i1 i1 W S e) :
    ∃ S' e', GptqInv n h perm quant W0 (min (i1 + bs) n) (min (i1 + bs) n) (min (i1 + bs) n)
        (gptqBlock n h perm quant bs W i1) S' e' := by
  set i2 := min (i1 + bs) n with hi2
  have hi12 : i1 ≤ i2 := by omega
  have hi2n : i2 ≤ n := by omega
  -- the inner loop
  have key : ∀ m, m ≤ i2 - i1 → ∃ S' e',
      GptqInv n h perm quant W0 i1 i2 (i1 + m)
        ((List.range' i1 m).foldl (gptqColumnStep h perm quant i2) ⟨W, fun _ _ => 0⟩).W S' e' ∧
      (∀ i, i1 ≤ i → i < i1 + m → ∀ r,
        ((List.range' i1 m).foldl (gptqColumnStep h perm quant i2) ⟨W, fun _ _ => 0⟩).E r i
          = e' r i) := by
    intro m
    induction m with
    | zero =>
      intro _
      refine ⟨S, e, ⟨inv.seen, inv.errs, inv.done, ?_, ?_, inv.out⟩, ?_⟩
      · intro j hj1 hj2 r; exact inv.later j (by omega) (by omega) r
      · intro j hj1 hj2 r; exact inv.later j (by omega) hj2 r
      · intro i hi1 hi2; omega
    | succ m ih =>
      intro hm
      obtain ⟨S', e', hinv, hE⟩ := ih (by omega)
      rw [List.range'_concat, List.foldl_append, List.foldl_cons, List.foldl_nil, one_mul]
      obtain ⟨S'', e'', hinv', hE', _⟩ := gptq_column_inv hinj hh (by omega) (by omega) hi2n hinv hE
      exact ⟨S'', e'', by simpa [Nat.add_assoc] using hinv', by simpa [Nat.add_assoc] using hE'⟩
  obtain ⟨S', e', hinv, hE⟩ := key (i2 - i1) le_rfl
  have hrw : i1 + (i2 - i1) = i2 := by omega
  rw [hrw] at hinv hE
  refine ⟨S', e', ?_⟩
  have hdef : gptqBlock n h perm quant bs W i1 =
      subColumns perm (List.range' i2 (n - i2))
        (fun r j => ∑ p ∈ Finset.Ico i1 i2,
          ((List.range' i1 (i2 - i1)).foldl (gptqColumnStep h perm quant i2)
            ⟨W, fun _ _ => 0⟩).E r p * h p j)
        ((List.range' i1 (i2 - i1)).foldl (gptqColumnStep h perm quant i2) ⟨W, fun _ _ => 0⟩).W :=
    rfl
  rw [hdef]
  generalize (List.range' i1 (i2 - i1)).foldl (gptqColumnStep h perm quant i2)
    ⟨W, fun _ _ => 0⟩ = st at hinv hE ⊢
  have hmem : ∀ j, j ∈ List.range' i2 (n - i2) ↔ i2 ≤ j ∧ j < n := by
    intro j; rw [List.mem_range'_1]; omega
  have hlater : ∀ j, i2 ≤ j → j < n → ∀ r,
      subColumns perm (List.range' i2 (n - i2))
        (fun r j => ∑ p ∈ Finset.Ico i1 i2, st.E r p * h p j) st.W r (perm j) =
      W0 r (perm j) - ∑ k ∈ Finset.range i2, e' r k * h k j := by
    intro j hj1 hj2 r
    rw [subColumns_mem perm _ _ _ r (List.nodup_range')
      (fun a ha b hb => hinj a ((hmem a).mp ha).2 b ((hmem b).mp hb).2) j
      ((hmem j).mpr ⟨hj1, hj2⟩)]
    rw [hinv.later j hj1 hj2 r]
    have : ∑ p ∈ Finset.Ico i1 i2, st.E r p * h p j = ∑ p ∈ Finset.Ico i1 i2, e' r p * h p j := by
      refine Finset.sum_congr rfl fun p hp => ?_
      have := Finset.mem_Ico.mp hp
      rw [hE p this.1 this.2 r]
    simp only [this]
    rw [← Finset.sum_range_add_sum_Ico _ hi12]
    ring
  refine ⟨hinv.seen, hinv.errs, ?_, ?_, ?_, ?_⟩
  · intro i hi r
    rw [subColumns_other]
    · exact hinv.done i hi r
    · intro a ha he
      have ha' := (hmem a).mp ha
      have := hinj a ha'.2 i (by omega) he
      omega
  · intro j hj1 hj2 r; omega
  · exact hlater
  · intro c hc r
    rw [subColumns_other]
    · exact hinv.out c hc r
    · exact fun a ha => hc a ((hmem a).mp ha).2

theorem gptq_loop_inv {n : ℕ} {h : ℕ → ℕ → K} {perm : ℕ → ℕ}
    {quant : (ρ → ℕ → K) → ℕ → ρ → K} {W0 : ρ → ℕ → K} {bs : ℕ} (hbs : 0 < bs)
    (hinj : ∀ i, i < n → ∀ j, j < n → perm i = perm j → i = j) (hh : ∀ i, i < n → h i i ≠ 0) :
    ∃ S e, GptqInv n h perm quant W0 n n n (gptqLoop n h perm quant bs W0) S e := by
  have key : ∀ m, ∃ S e, GptqInv n h perm quant W0 (min (m * bs) n) (min (m * bs) n)
      (min (m * bs) n)
      (((List.range m).map (fun k => k * bs)).foldl (gptqBlock n h perm quant bs) W0) S e ∨
        n < m * bs := by
    intro m
    induction m with
    | zero =>
      refine ⟨fun _ => W0, fun _ _ => 0, Or.inl ?_⟩
      constructor <;> intros <;> simp_all
    | succ m ih =>
      obtain ⟨S, e, hi⟩ := ih
      by_cases hm : n < m * bs
      · exact ⟨S, e, Or.inr (by rw [Nat.add_mul]; omega)⟩
      · have hi' := hi.resolve_right hm
        have hmin : min (m * bs) n = m * bs := by omega
        rw [hmin] at hi'
        obtain ⟨S', e', hb⟩ := gptq_block_inv (bs := bs) hinj hh (by omega) hi'
        refine ⟨S', e', Or.inl ?_⟩
        rw [List.range_succ, List.map_append, List.foldl_append]
        simpa [Nat.add_mul] using hb
  -- the last block start is below n, the end is at least n
  set M := (n + bs - 1) / bs with hM
  have hge : n ≤ M * bs := by
    have := Nat.div_add_mod (n + bs - 1) bs
    have h2 := Nat.mod_lt (n + bs - 1) hbs
    rw [← hM, Nat.mul_comm] at this
    omega
  have hlast : M = 0 ∨ (M - 1) * bs < n := by
    by_cases h0 : M = 0
    · exact Or.inl h0
    · right
      have : M * bs ≤ n + bs - 1 := Nat.div_mul_le_self _ _
      clear_value M
      obtain ⟨k, rfl⟩ := Nat.exists_eq_succ_of_ne_zero h0
      have h3 : (k.succ - 1) * bs + bs = k.succ * bs := by
        rw [← Nat.succ_mul]; congr 1
      omega
  have hgoal : gptqLoop n h perm quant bs W0 =
      ((List.range M).map (fun k => k * bs)).foldl (gptqBlock n h perm quant bs) W0 := rfl
  rw [hgoal]
  clear hgoal
  clear_value M
  clear hM
  have hfin : ∃ S e, GptqInv n h perm quant W0 n n n
      (((List.range M).map (fun k => k * bs)).foldl (gptqBlock n h perm quant bs) W0) S e := by
    rcases hlast with h0 | hl
    · rw [h0] at hge
      have hn : n = 0 := by omega
      subst hn h0
      refine ⟨fun _ => W0, fun _ _ => 0, ⟨?_, ?_, ?_, ?_, ?_, ?_⟩⟩
      · intro i hi; omega
      · intro i hi; omega
      · intro i hi; omega
      · intro i _ hi; omega
      · intro i _ hi; omega
      · intro c _ r; rfl
    · obtain ⟨S, e, hi⟩ := key (M - 1)
      have hi' := hi.resolve_right (by omega)
      have hmin : min ((M - 1) * bs) n = (M - 1) * bs := by omega
      rw [hmin] at hi'
      obtain ⟨S', e', hb⟩ := gptq_block_inv (bs := bs) hinj hh (by omega) hi'
      have hM1 : M = (M - 1) + 1 := by
        by_contra hc
        have : M = 0 := by omega
        rw [this] at hge
        simp at hge
        omega
      have h3 : (M - 1) * bs + bs = M * bs := by
        rw [← Nat.succ_mul]; congr 1; omega
      rw [h3, min_eq_right hge] at hb
      refine ⟨S', e', ?_⟩
      rw [hM1, List.range_succ, List.map_append, List.foldl_append]
      simpa using hb
  exact hfin

end Gptq

end Brevitas

namespace Brevitas

section Hessian

theorem hessUpdate_eq (st : HessState) (b : ℕ) (rows : List (ℕ → ℝ)) (hb : 0 < b) :
    ∃ st', hessUpdate st b rows = some st' ∧ st'.nsamples = st.nsamples + b ∧
      ∀ i j, st'.H i j * ((st.nsamples + b : ℕ) : ℝ) =
        st.H i j * (st.nsamples : ℝ) + 2 * (rows.map (fun x => x i * x j)).sum := by
  have h0 : ¬ (st.nsamples + b = 0) := by omega
  have hpos : (0 : ℝ) < ((st.nsamples + b : ℕ) : ℝ) := by exact_mod_cast (by omega)
  refine ⟨_, by unfold hessUpdate; rw [if_neg h0], rfl, fun i j => ?_⟩
  have hs : ((rows.map (fun x => fun c => Real.sqrt (2 / ((st.nsamples + b : ℕ) : ℝ)) * x c)).map
      (fun x => x i * x j)).sum =
      (2 / ((st.nsamples + b : ℕ) : ℝ)) * (rows.map (fun x => x i * x j)).sum := by
    rw [List.map_map, ← List.sum_map_mul_left]
    congr 1
    refine List.map_congr_left fun x _ => ?_
    have := Real.mul_self_sqrt (le_of_lt (div_pos (by norm_num : (0:ℝ) < 2) hpos))
    simp only [Function.comp]
    calc _ = (Real.sqrt (2 / ((st.nsamples + b : ℕ) : ℝ)) * Real.sqrt (2 / ((st.nsamples + b : ℕ) : ℝ)))
          * (x i * x j) := by ring
      _ = _ := by rw [this]
  simp only [hs]
  field_simp

theorem hessRun_aux (batches : List (ℕ × List (ℕ → ℝ))) (hb : ∀ b ∈ batches, 0 < b.1)
    (st : HessState) :
    ∃ st', batches.foldl (fun st b => st.bind fun st => hessUpdate st b.1 b.2) (some st) = some st' ∧
      st'.nsamples = st.nsamples + (batches.map Prod.fst).sum ∧
      ∀ i j, st'.H i j * (st'.nsamples : ℝ) = st.H i j * (st.nsamples : ℝ) +
        2 * ((batches.flatMap Prod.snd).map (fun x => x i * x j)).sum := by
  induction batches generalizing st with
  | nil => exact ⟨st, rfl, by simp, by simp⟩
  | cons b l ih =>
    obtain ⟨s1, h1, h2, h3⟩ := hessUpdate_eq st b.1 b.2 (hb b List.mem_cons_self)
    obtain ⟨s2, h4, h5, h6⟩ := ih (fun x hx => hb x (List.mem_cons_of_mem _ hx)) s1
    refine ⟨s2, ?_, ?_, fun i j => ?_⟩
    · rw [List.foldl_cons, Option.bind_some, h1]; exact h4
    · rw [h5, h2]; simp [Nat.add_assoc]
    · rw [h6 i j, h2, h3 i j]
      simp [List.flatMap_cons, mul_add, add_assoc]

end Hessian

section Gpfq

variable {K : Type*} [Field K] [LinearOrder K] [IsStrictOrderedRing K] {ρ σ : Type*} [Fintype σ]

theorem gpfqLoop_concat (xf xq : ℕ → σ → K) (norm : ℕ → K) (quant : (ρ → ℕ → K) → ℕ → ρ → K)
    (l : List ℕ) (c : ℕ) (W : ρ → ℕ → K) :
    gpfqLoop xf xq norm quant (l ++ [c]) W =
      gpfqStep xf xq norm quant (gpfqLoop xf xq norm quant l W) c := by
  simp [gpfqLoop, List.foldl_append]

/-- Columns that have not been processed keep their weight, and the residual is the sum over the
processed columns. -/
theorem gpfqLoop_inv (xf xq : ℕ → σ → K) (norm : ℕ → K) (quant : (ρ → ℕ → K) → ℕ → ρ → K)
    (W : ρ → ℕ → K) (l : List ℕ) (hnd : l.Nodup) :
    (∀ r c, c ∉ l → (gpfqLoop xf xq norm quant l W).W r c = W r c) ∧
    (∀ r s, (gpfqLoop xf xq norm quant l W).U r s =
      (l.map fun c => W r c * xf c s - (gpfqLoop xf xq norm quant l W).Q r c * xq c s).sum) := by
  induction l using List.reverseRecOn with
  | nil => simp [gpfqLoop]
  | append_singleton l c ih =>
    have hnd' := List.nodup_append.mp hnd
    have hc : c ∉ l := fun h => hnd'.2.2 c h c (by simp) rfl
    obtain ⟨ih1, ih2⟩ := ih hnd'.1
    rw [gpfqLoop_concat]
    refine ⟨fun r c' hc' => ?_, fun r s => ?_⟩
    · simp only [List.mem_append, List.mem_singleton, not_or] at hc'
      simp only [gpfqStep, if_neg hc'.2]
      exact ih1 r c' hc'.1
    · rw [List.map_append, List.sum_append]
      have : (l.map fun c' => W r c' * xf c' s -
          (gpfqStep xf xq norm quant (gpfqLoop xf xq norm quant l W) c).Q r c' * xq c' s) =
          (l.map fun c' => W r c' * xf c' s - (gpfqLoop xf xq norm quant l W).Q r c' * xq c' s) := by
        refine List.map_congr_left fun a ha => ?_
        have hne : a ≠ c := fun h => hc (h ▸ ha)
        simp [gpfqStep, hne]
      rw [this, ← ih2 r s]
      simp [gpfqStep, ih1 r c hc]
      ring

/-- Processed columns are not touched again. -/
theorem gpfqLoop_prefix (xf xq : ℕ → σ → K) (norm : ℕ → K) (quant : (ρ → ℕ → K) → ℕ → ρ → K)
    (W : ρ → ℕ → K) (l m : List ℕ) (r : ρ) (c : ℕ) (hc : c ∉ m) :
    (gpfqLoop xf xq norm quant (l ++ m) W).W r c = (gpfqLoop xf xq norm quant l W).W r c ∧
    (gpfqLoop xf xq norm quant (l ++ m) W).Q r c = (gpfqLoop xf xq norm quant l W).Q r c := by
  induction m using List.reverseRecOn with
  | nil => simp
  | append_singleton m a ih =>
    simp only [List.mem_append, List.mem_singleton, not_or] at hc
    rw [← List.append_assoc, gpfqLoop_concat]
    obtain ⟨h1, h2⟩ := ih hc.1
    simp [gpfqStep, hc.2, h1, h2]

/-- The least-squares property of the target. -/
theorem gpfqArg_optimal (u x : σ → K) (z : K) :
    ∑ s, (u s - gpfqArg u x (∑ s, x s * x s) * x s) ^ 2 ≤ ∑ s, (u s - z * x s) ^ 2 := by
  have expand : ∀ a : K, ∑ s, (u s - a * x s) ^ 2 =
      ∑ s, u s ^ 2 - 2 * a * ∑ s, u s * x s + a ^ 2 * ∑ s, x s * x s := by
    intro a
    rw [Finset.mul_sum, Finset.mul_sum, ← Finset.sum_sub_distrib, ← Finset.sum_add_distrib]
    exact Finset.sum_congr rfl fun s _ => by ring
  rw [expand, expand]
  have hn : 0 ≤ ∑ s, x s * x s := Finset.sum_nonneg fun s _ => mul_self_nonneg _
  unfold gpfqArg
  set N := ∑ s, x s * x s with hN
  set D := ∑ s, u s * x s with hD
  by_cases h : 0 < N
  · rw [if_pos h]
    have : (z ^ 2 * N - 2 * z * D) - ((D / N) ^ 2 * N - 2 * (D / N) * D) = (z * N - D) ^ 2 / N := by
      field_simp
      ring
    have h2 : 0 ≤ (z * N - D) ^ 2 / N := div_nonneg (sq_nonneg _) h.le
    linarith
  · have h0 : N = 0 := le_antisymm (not_lt.mp h) hn
    have hx : ∀ s, x s = 0 := by
      intro s
      have := (Finset.sum_eq_zero_iff_of_nonneg (fun s _ => mul_self_nonneg (x s))).mp
        (hN.symm.trans h0) s (Finset.mem_univ _)
      exact mul_self_eq_zero.mp this
    have hD0 : D = 0 := by simp [hD, hx]
    rw [if_neg h, h0, hD0]
    simp

/-- Pythagoras for the target. -/
theorem gpfqArg_pythagoras (u x : σ → K) (z : K) :
    ∑ s, (u s - z * x s) ^ 2 =
      ∑ s, (u s - gpfqArg u x (∑ s, x s * x s) * x s) ^ 2 +
        (gpfqArg u x (∑ s, x s * x s) - z) ^ 2 * ∑ s, x s * x s := by
  have expand : ∀ a : K, ∑ s, (u s - a * x s) ^ 2 =
      ∑ s, u s ^ 2 - 2 * a * ∑ s, u s * x s + a ^ 2 * ∑ s, x s * x s := by
    intro a
    rw [Finset.mul_sum, Finset.mul_sum, ← Finset.sum_sub_distrib, ← Finset.sum_add_distrib]
    exact Finset.sum_congr rfl fun s _ => by ring
  rw [expand, expand]
  have hn : 0 ≤ ∑ s, x s * x s := Finset.sum_nonneg fun s _ => mul_self_nonneg _
  unfold gpfqArg
  set N := ∑ s, x s * x s with hN
  set D := ∑ s, u s * x s with hD
  by_cases h : 0 < N
  · rw [if_pos h]
    field_simp
    ring
  · have h0 : N = 0 := le_antisymm (not_lt.mp h) hn
    have hx : ∀ s, x s = 0 := by
      intro s
      have := (Finset.sum_eq_zero_iff_of_nonneg (fun s _ => mul_self_nonneg (x s))).mp
        (hN.symm.trans h0) s (Finset.mem_univ _)
      exact mul_self_eq_zero.mp this
    have hD0 : D = 0 := by simp [hD, hx]
    rw [if_neg h, h0, hD0]
    simp

end Gpfq

end Brevitas
