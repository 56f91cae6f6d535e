import Mathlib.Algebra.BigOperators.Group.Finset.Basic
import Mathlib.Algebra.BigOperators.Intervals
import Mathlib.Data.List.GetD
import Mathlib.Tactic.Ring
import Mathlib.Tactic.FieldSimp
import Verif.Lemmas.Shape
import Verif.Spec.BiasCorr
import Verif.Model.BiasCorr

/-!
# The mean computed by bias correction is the mean over a channel
-/

set_option linter.unusedSectionVars false

namespace Brevitas

open Spec

theorem swap0_length (d : ℕ) (l : List ℕ) : (swap0 d l).length = l.length := by simp [swap0]

theorem swap0_getD (d : ℕ) (l : List ℕ) (hd : d < l.length) (k : ℕ) :
    (swap0 d l).getD k 0 = if k = d then l.getD 0 0 else if k = 0 then l.getD d 0 else l.getD k 0 := by
  unfold swap0
  simp only [List.getD_eq_getElem?_getD, List.getElem?_set, List.length_set]
  by_cases h1 : k = d
  · subst h1; simp [hd]
  · rw [if_neg (fun h => h1 h.symm), if_neg h1]
    by_cases h2 : k = 0
    · subst h2
      have : 0 < l.length := by omega
      simp [this]
    · rw [if_neg (fun h => h2 h.symm), if_neg h2]

theorem list_ext_getD {a b : List ℕ} (hl : a.length = b.length) (h : ∀ k, a.getD k 0 = b.getD k 0) : a = b := by
  apply List.ext_getElem hl
  intro k h1 h2
  have := h k
  rwa [List.getD_eq_getElem _ _ h1, List.getD_eq_getElem _ _ h2] at this

theorem swap0_swap0 (d : ℕ) (l : List ℕ) (hd : d < l.length) : swap0 d (swap0 d l) = l := by
  apply list_ext_getD (by simp [swap0_length])
  intro k
  rw [swap0_getD d _ (by rw [swap0_length]; exact hd), swap0_getD d l hd, swap0_getD d l hd, swap0_getD d l hd]
  by_cases h1 : k = d
  · subst h1
    by_cases h2 : k = 0
    · subst h2; simp
    · simp [h2, Ne.symm h2]
  · by_cases h2 : k = 0
    · subst h2; simp [h1]
    · simp [h1, h2]

theorem inRange_iff {s i : List ℕ} : InRange s i ↔ s.length = i.length ∧ ∀ k < s.length, i.getD k 0 < s.getD k 0 := by
  unfold InRange
  rw [List.forall₂_iff_get]
  constructor
  · rintro ⟨h1, h2⟩
    refine ⟨h1, fun k hk => ?_⟩
    rw [List.getD_eq_getElem _ _ hk, List.getD_eq_getElem _ _ (h1 ▸ hk)]
    exact h2 k hk (h1 ▸ hk)
  · rintro ⟨h1, h2⟩
    refine ⟨h1, fun k hk hk' => ?_⟩
    have := h2 k hk
    rwa [List.getD_eq_getElem _ _ hk, List.getD_eq_getElem _ _ hk'] at this

theorem swap0_inRange {d : ℕ} {s i : List ℕ} (hd : d < s.length) (h : InRange s i) : InRange (swap0 d s) (swap0 d i) := by
  rw [inRange_iff] at h ⊢
  obtain ⟨h1, h2⟩ := h
  refine ⟨by simp [swap0_length, h1], fun k hk => ?_⟩
  rw [swap0_length] at hk
  rw [swap0_getD d s hd, swap0_getD d i (h1 ▸ hd)]
  split_ifs
  · exact h2 0 (by omega)
  · exact h2 d hd
  · exact h2 k hk

/-- The coordinate formula. -/
theorem unravel_getD_eq (s : List ℕ) : ∀ (f d : ℕ), f < s.prod → d < s.length → (unravel s f).getD d 0 = coord s d f := by
  induction s with
  | nil => intro f d _ hd; simp at hd
  | cons a s ih =>
    intro f d hf hd
    rw [List.prod_cons] at hf
    have hpos : 0 < s.prod := by
      rcases Nat.eq_zero_or_pos s.prod with h | h
      · rw [h] at hf; omega
      · exact h
    cases d with
    | zero =>
      simp only [unravel, List.getD_cons_zero, coord, List.drop_succ_cons, List.drop_zero]
      rw [Nat.mod_eq_of_lt]
      rw [Nat.div_lt_iff_lt_mul hpos]
      exact hf
    | succ d =>
      simp only [unravel, List.getD_cons_succ]
      rw [ih _ _ (Nat.mod_lt _ hpos) (by simpa using hd)]
      simp only [coord, List.drop_succ_cons, List.getD_cons_succ]
      have hd' : d < s.length := by simpa using hd
      -- the size of the dimension times what follows divides the product
      have hsplit : s.prod = (s.take d).prod * (s.getD d 1 * (s.drop (d + 1)).prod) := by
        conv_lhs => rw [← List.take_append_drop d s, List.prod_append, List.drop_eq_getElem_cons hd', List.prod_cons]
        rw [List.getD_eq_getElem _ _ hd']
      rw [hsplit]
      rw [Nat.mul_comm (s.take d).prod, Nat.mul_assoc, Nat.mul_comm (s.getD d 1), Nat.mul_assoc]
      rw [Nat.mod_mul_right_div_self, Nat.mul_comm, Nat.mul_comm (s.getD d 1), Nat.mod_mul_left_mod]

theorem unravel_length (s : List ℕ) (f : ℕ) : (unravel s f).length = s.length := by
  induction s generalizing f with
  | nil => rfl
  | cons a s ih => simp [unravel, ih]

theorem swap0_prod (d : ℕ) (l : List ℕ) (hd : d < l.length) : (swap0 d l).prod = l.prod := by
  cases l with
  | nil => simp at hd
  | cons x r =>
    cases d with
    | zero => simp [swap0]
    | succ d =>
      have hd' : d < r.length := by simpa using hd
      simp only [swap0, List.getD_cons_succ, List.getD_cons_zero, List.set_cons_zero, List.set_cons_succ, List.prod_cons, List.prod_set, hd',
        if_true]
      rw [List.getD_eq_getElem _ _ hd']
      conv_rhs => rw [← List.take_append_drop d r, List.prod_append, List.drop_eq_getElem_cons hd', List.prod_cons]
      ring

variable {K : Type*} [Field K]

theorem sum_map_range (n : ℕ) (f : ℕ → K) : ((List.range n).map f).sum = ∑ i ∈ Finset.range n, f i := rfl

theorem sum_map_filter_range (n : ℕ) (p : ℕ → Prop) [DecidablePred p] (f : ℕ → K) :
    (((List.range n).filter fun i => decide (p i)).map f).sum = ∑ i ∈ (Finset.range n).filter p, f i := rfl

theorem length_filter_range (n : ℕ) (p : ℕ → Prop) [DecidablePred p] :
    ((List.range n).filter fun i => decide (p i)).length = ((Finset.range n).filter p).card := rfl

/-- `compute_mean` computes channel means. -/
theorem computeMean_spec (t : Tensor K) (hw : t.WF) (d : ℕ) (hd : d < t.shape.length) (hpos : 0 < t.shape.prod) :
    (computeMean t d).length = t.shape.getD d 0 ∧
      ∀ c < t.shape.getD d 0, (computeMean t d).getD c 0 = channelMean t.shape t.data d c ∧
        0 < ((List.range t.data.length).filter fun i => coord t.shape d i = c).length := by
  obtain ⟨s, data⟩ := t
  simp only [Tensor.WF] at hw
  simp only at hd hpos ⊢
  obtain ⟨s', hs'⟩ : ∃ s', s' = swap0 d s := ⟨_, rfl⟩
  have hprod : s'.prod = s.prod := by rw [hs', swap0_prod d s hd]
  have hlen : s'.length = s.length := by rw [hs', swap0_length]
  have hd' : d < s'.length := by rw [hlen]; exact hd
  have hss : swap0 d s' = s := by rw [hs', swap0_swap0 d s hd]
  have hhead : s'.getD 0 0 = s.getD d 0 := by
    rw [hs', swap0_getD d s hd]
    by_cases h : 0 = d
    · rw [if_pos h, ← h]
    · rw [if_neg h, if_pos rfl]
  obtain ⟨rows, tl, htl⟩ : ∃ rows tl, s' = rows :: tl := by
    cases h : s' with
    | nil => rw [h] at hd'; simp at hd'
    | cons a b => exact ⟨a, b, rfl⟩
  have hrows : rows = s.getD d 0 := by rw [← hhead, htl]; rfl
  have hP : s.prod = rows * tl.prod := by rw [← hprod, htl, List.prod_cons]
  have hrpos : 0 < rows := by
    rcases Nat.eq_zero_or_pos rows with h | h
    · rw [hP, h] at hpos; simp at hpos
    · exact h
  have hRpos : 0 < tl.prod := by
    rcases Nat.eq_zero_or_pos tl.prod with h | h
    · rw [hP, h] at hpos; simp at hpos
    · exact h
  have hcm : computeMean ⟨s, data⟩ d = (List.range rows).map fun r => ((List.range tl.prod).map fun j =>
      ((List.range s'.prod).map fun f => data.getD (ravel s (swap0 d (unravel s' f))) 0).getD (r * tl.prod + j) 0).sum / (tl.prod : K) := by
    have hcol : s'.prod / rows = tl.prod := by rw [hprod, hP]; exact Nat.mul_div_cancel_left _ hrpos
    unfold computeMean Tensor.transpose0
    simp only [← hs', hhead, List.length_map, List.length_range]
    rw [← hrows, hcol]
  refine ⟨by rw [hcm]; simp [hrows], fun c hc => ?_⟩
  have hc' : c < rows := by rw [hrows]; exact hc
  rw [hcm, List.getD_eq_getElem _ _ (by simpa using hc'), List.getElem_map, List.getElem_range]
  unfold channelMean averageOf
  rw [List.length_map, sum_map_filter_range, length_filter_range, sum_map_range]
  -- the two sets of positions
  have hf : ∀ j < tl.prod, c * tl.prod + j < s'.prod := by
    intro j hj
    rw [hprod, hP]
    calc c * tl.prod + j < c * tl.prod + tl.prod := by omega
      _ = (c + 1) * tl.prod := by ring
      _ ≤ rows * tl.prod := Nat.mul_le_mul_right _ hc'
  obtain ⟨φ, hφ⟩ : ∃ φ : ℕ → ℕ, φ = fun f => ravel s (swap0 d (unravel s' f)) := ⟨_, rfl⟩
  obtain ⟨ψ, hψ⟩ : ∃ ψ : ℕ → ℕ, ψ = fun i => ravel s' (swap0 d (unravel s i)) := ⟨_, rfl⟩
  have hφr : ∀ f < s'.prod, InRange s (swap0 d (unravel s' f)) := by
    intro f h
    have := swap0_inRange hd' (unravel_inRange h)
    rwa [hss] at this
  have hψr : ∀ i < s.prod, InRange s' (swap0 d (unravel s i)) := by
    intro i h
    have := swap0_inRange hd (unravel_inRange h)
    rwa [← hs'] at this
  have hφlt : ∀ f < s'.prod, φ f < s.prod := fun f h => by rw [hφ]; exact ravel_lt (hφr f h)
  have hψlt : ∀ i < s.prod, ψ i < s'.prod := fun i h => by rw [hψ]; exact ravel_lt (hψr i h)
  have hψφ : ∀ f < s'.prod, ψ (φ f) = f := by
    intro f h
    rw [hψ, hφ]
    simp only
    rw [unravel_ravel (hφr f h), swap0_swap0 d _ (by rw [unravel_length]; exact hd'), ravel_unravel h]
  have hφψ : ∀ i < s.prod, φ (ψ i) = i := by
    intro i h
    rw [hψ, hφ]
    simp only
    rw [unravel_ravel (hψr i h), swap0_swap0 d _ (by rw [unravel_length]; exact hd), ravel_unravel h]
  have hcoord : ∀ f < s'.prod, coord s d (φ f) = f / tl.prod := by
    intro f h
    rw [← unravel_getD_eq s _ d (hφlt f h) hd]
    rw [hφ]
    simp only
    rw [unravel_ravel (hφr f h), swap0_getD d _ (by rw [unravel_length]; exact hd'), if_pos rfl, htl]
    rfl
  have hmem : ∀ j ∈ Finset.range tl.prod, φ (c * tl.prod + j) ∈ (Finset.range data.length).filter fun i => coord s d i = c := by
    intro j hj
    have hj' := Finset.mem_range.mp hj
    rw [Finset.mem_filter, Finset.mem_range, hw]
    refine ⟨hφlt _ (hf j hj'), ?_⟩
    rw [hcoord _ (hf j hj'), Nat.add_comm, Nat.add_mul_div_right _ _ hRpos, Nat.div_eq_of_lt hj', Nat.zero_add]
  have hback : ∀ i ∈ (Finset.range data.length).filter fun i => coord s d i = c, c * tl.prod + ψ i % tl.prod = ψ i := by
    intro i hi
    rw [Finset.mem_filter, Finset.mem_range, hw] at hi
    have h1 := hcoord _ (hψlt i hi.1)
    rw [hφψ i hi.1, hi.2] at h1
    rw [h1, Nat.mul_comm]
    exact Nat.div_add_mod _ _
  have hcard : ((Finset.range data.length).filter fun i => coord s d i = c).card = tl.prod := by
    rw [← Finset.card_range tl.prod]
    symm
    refine Finset.card_bij' (fun j _ => φ (c * tl.prod + j)) (fun i _ => ψ i % tl.prod) hmem
      (fun i _ => Finset.mem_range.mpr (Nat.mod_lt _ hRpos)) (fun j hj => ?_) (fun i hi => ?_)
    · have hj' := Finset.mem_range.mp hj
      rw [hψφ _ (hf j hj'), Nat.mul_comm, Nat.mul_add_mod, Nat.mod_eq_of_lt hj']
    · rw [hback i hi]
      exact hφψ i (by rw [Finset.mem_filter, Finset.mem_range, hw] at hi; exact hi.1)
  rw [hcard]
  refine ⟨?_, hRpos⟩
  congr 1
  refine Finset.sum_bij' (fun j _ => φ (c * tl.prod + j)) (fun i _ => ψ i % tl.prod) hmem
      (fun i _ => Finset.mem_range.mpr (Nat.mod_lt _ hRpos)) (fun j hj => ?_) (fun i hi => ?_) (fun j hj => ?_)
  · have hj' := Finset.mem_range.mp hj
    rw [hψφ _ (hf j hj'), Nat.mul_comm, Nat.mul_add_mod, Nat.mod_eq_of_lt hj']
  · rw [hback i hi]
    exact hφψ i (by rw [Finset.mem_filter, Finset.mem_range, hw] at hi; exact hi.1)
  · have hj' := Finset.mem_range.mp hj
    have hlt := hf j hj'
    rw [List.getD_eq_getElem _ _ (by simpa using hlt), List.getElem_map, List.getElem_range, hφ]

/-- A bias shifts the mean of its channel. -/
theorem channelMean_addBias [CharZero K] (t : Tensor K) (hw : t.WF) (d : ℕ) (hd : d < t.shape.length) (hpos : 0 < t.shape.prod) (b : List K)
    (c : ℕ) (hc : c < t.shape.getD d 0) :
    channelMean (addBias t d b).shape (addBias t d b).data d c = channelMean t.shape t.data d c + b.getD c 0 := by
  have hcount := ((computeMean_spec t hw d hd hpos).2 c hc).2
  have hlen : (addBias t d b).data.length = t.data.length := by simp [addBias]
  have hshape : (addBias t d b).shape = t.shape := rfl
  unfold channelMean averageOf
  rw [hlen, hshape, List.length_map, List.length_map]
  have hne : ((((List.range t.data.length).filter fun i => coord t.shape d i = c).length : ℕ) : K) ≠ 0 := by
    exact_mod_cast hcount.ne'
  have hmap : (((List.range t.data.length).filter fun i => coord t.shape d i = c).map fun i => (addBias t d b).data.getD i 0) =
      ((List.range t.data.length).filter fun i => coord t.shape d i = c).map fun i => t.data.getD i 0 + b.getD c 0 := by
    apply List.map_congr_left
    intro i hi
    rw [List.mem_filter, List.mem_range] at hi
    obtain ⟨hi1, hi⟩ := hi
    have hi2 : coord t.shape d i = c := by simpa using hi
    have hw' : t.data.length = t.shape.prod := hw
    rw [← hi2, ← unravel_getD_eq _ _ _ (hw' ▸ hi1) hd]
    rw [List.getD_eq_getElem _ _ (by rw [hlen]; exact hi1), List.getD_eq_getElem _ _ hi1]
    simp only [addBias, List.getElem_map, List.getElem_zipIdx, Nat.zero_add]
  rw [hmap, List.sum_map_add, List.map_const', List.sum_replicate, nsmul_eq_mul]
  field_simp

theorem addBias_wf (t : Tensor K) (hw : t.WF) (d : ℕ) (b : List K) : (addBias t d b).WF := by
  have hw' : t.data.length = t.shape.prod := hw
  unfold Tensor.WF addBias
  simpa using hw'

theorem zipVec_of_length {f : K → K → K} {a b : List K} (h : a.length = b.length) : zipVec f a b = some (List.zipWith f a b) := if_pos h

theorem zipWith_getD {f : K → K → K} {a b : List K} (h : a.length = b.length) {c : ℕ} (hc : c < a.length) :
    (List.zipWith f a b).getD c 0 = f (a.getD c 0) (b.getD c 0) := by
  rw [List.getD_eq_getElem _ _ (by simp; omega), List.getElem_zipWith, List.getD_eq_getElem _ _ hc, List.getD_eq_getElem _ _ (h ▸ hc)]

end Brevitas
