import Verif.Model.Dynamic
import Verif.Spec.Sharing
import Verif.Lemmas.ChannelScale
import Verif.Lemmas.SubTensor

/-!
# Lemmas about dynamic quantisers
-/

set_option linter.unusedSectionVars false

namespace Brevitas

namespace Dynamic

open NdTensor ChannelScale Generative

variable {K : Type*} [Field K] [LinearOrder K] [IsStrictOrderedRing K] [FloorRing K]

theorem xclamp_fin (lo hi x : K) : xclamp lo hi (.fin x) = .fin (tensorClamp x lo hi) := by
  unfold xclamp tensorClamp
  by_cases h : hi < x
  · simp only [XF.gt, h, decide_true, if_true, XF.neg, neg_lt_neg_iff, decide_eq_true_eq, gt_iff_lt]
    split <;> rfl
  · simp only [XF.gt, h, decide_false, Bool.false_eq_true, if_false, XF.neg, neg_lt_neg_iff, decide_eq_true_eq, gt_iff_lt]
    split <;> rfl

theorem toIntX_fin (c : IntQuantCfg K) {s : K} (hs : s ≠ 0) (z : K) (b : ℕ) (x : K) : toIntX c s (.fin z) b x = .fin (c.toInt s z b x) := by
  simp only [toIntX, xdiv, if_neg hs, xadd, xround, xclamp_fin, IntQuantCfg.toInt]

theorem forwardX_fin (c : IntQuantCfg K) {s : K} (hs : s ≠ 0) (z : K) (b : ℕ) (x : K) : forwardX c s (.fin z) b x = .fin (c.forward s z b x) := by
  simp only [forwardX, toIntX_fin c hs, XF.neg, xadd, XF.mul, IntQuantCfg.forward, sub_eq_add_neg]

theorem scaleShiftX_fin (c : IntQuantCfg K) {s : K} (hs : s ≠ 0) (q : Bool) (v : K) (b : ℕ) : scaleShiftX c q v s b = .fin (scaleShiftZeroPoint c q v s b) := by
  cases q
  · simp only [scaleShiftX, scaleShiftZeroPoint, Bool.false_eq_true, if_false, xdiv, if_neg hs, xadd]
  · simp only [scaleShiftX, scaleShiftZeroPoint, if_true, toIntX_fin c hs]

/-- What `generate_quantizers` sets for each way of sharing. -/
def rowsOf : Spec.Sharing → Option Rows
  | .tensor => none
  | .row => some .identity
  | .column => some (.permuted [0, 2, 1])

theorem reduceRows_eq {stat : List K → Option K} (hst : ∀ l, l ≠ [] → (stat l).isSome) {v : NdTensor K} {p n : ℕ} (hv : v.shape = [p, n]) (hn : n ≠ 0) :
    reduceRows stat v = some ⟨[p], fun idx => (stat (row v (idx.getD 0 0))).getD 0⟩ := by
  have hne : ∀ i, row v i ≠ [] := fun i => by simp [row, hv, hn]
  rw [reduceRows, if_pos (fun i _ => hst _ (hne i))]
  simp [hv]

theorem getD_of_isSome {o : Option K} (h : o.isSome) : o = some (o.getD 0) := by
  obtain ⟨v, rfl⟩ := Option.isSome_iff_exists.1 h; rfl

theorem statOf_tensor {stat : List K → Option K} (hst : ∀ l, l ≠ [] → (stat l).isSome) {x : NdTensor K} (h : x.shape.prod ≠ 0) :
    ∃ t, statOf stat none x = some t ∧ t.shape = [] ∧ ∀ idx, stat x.elems = some (t.data (bcIndex t.shape idx)) := by
  obtain ⟨v, hv, ⟨p, hp⟩, hflat⟩ := view_flat x
  have hne : x.elems ≠ [] := by
    rw [elems, ← map_fromPosition]
    simp [h]
  have hs := getD_of_isSome (hst _ hne)
  have hfl : (List.range (v.shape.getD 0 0)).map (fun j => v.data [j]) = x.elems := by rw [← hflat]; rfl
  refine ⟨⟨[], fun _ => (stat x.elems).getD 0⟩, ?_, rfl, fun _ => hs⟩
  simp only [statOf, hv, Option.bind_some, reduceAll, hfl]
  rw [hs]
  simp [reshape]

theorem fromPosition_ravel {s idx : List ℕ} (h : InBounds s idx) : fromPosition s (Spec.ravel s idx) = idx := by
  rw [fromPosition_eq]
  exact unravel_ravel ((inBounds_iff_inRange _ _).1 h)

theorem statOf_row {stat : List K → Option K} (hst : ∀ l, l ≠ [] → (stat l).isSome) {x : NdTensor K} {lead : List ℕ} {n : ℕ} (hx : x.shape = lead ++ [n]) (hn : n ≠ 0) :
    ∃ t, statOf stat (some .identity) x = some t ∧ t.shape = lead ++ [1] ∧
      ∀ I j, InBounds lead I → j < n → stat ((List.range n).map fun j => x.data (I ++ [j])) = some (t.data (bcIndex t.shape (I ++ [j]))) := by
  have hprod : x.shape.prod = lead.prod * n := by rw [hx]; simp
  have hdiv : x.shape.prod / n = lead.prod := by rw [hprod, Nat.mul_div_cancel _ (Nat.pos_of_ne_zero hn)]
  set v : NdTensor K := ⟨[lead.prod, n], fun idx => x.data (fromPosition x.shape (Spec.ravel [lead.prod, n] idx))⟩ with hv
  have hview : overOutputFeaturesView none x = some v := by
    have hl : x.shape.getLast? = some n := by rw [hx]; simp
    simp only [overOutputFeaturesView, Option.bind_some, hl, if_neg hn, hdiv, reshape]
    rw [if_pos (by rw [hprod]; simp)]
  have hrow : ∀ I, InBounds lead I → row v (Spec.ravel lead I) = (List.range n).map fun j => x.data (I ++ [j]) := by
    intro I hI
    simp only [row, hv, List.getD_cons_succ, List.getD_cons_zero]
    apply List.map_congr_left
    intro j hj
    have hj' : j < n := List.mem_range.1 hj
    have hin : InBounds (lead ++ [n]) (I ++ [j]) := List.rel_append hI (List.Forall₂.cons hj' List.Forall₂.nil)
    have h1 : Spec.ravel [lead.prod, n] [Spec.ravel lead I, j] = Spec.ravel (lead ++ [n]) (I ++ [j]) := by
      rw [ravel_append hI.length.symm (by simp)]
      simp [Spec.ravel]
    rw [h1, hx, fromPosition_ravel hin]
  refine ⟨⟨lead ++ [1], fun idx => (stat (row v ((fromPosition [lead.prod] (Spec.ravel (lead ++ [1]) idx)).getD 0 0))).getD 0⟩, ?_, rfl, ?_⟩
  · simp only [statOf, hview, Option.bind_some, reduceRows_eq hst (show v.shape = [lead.prod, n] from rfl) hn, reshape]
    rw [hx, List.dropLast_concat, if_pos (by simp)]
  · intro I j hI hj
    have hbc : bcIndex (lead ++ [1]) (I ++ [j]) = I ++ [0] := by
      have hlen : (I ++ [j]).length - (lead ++ [1]).length = 0 := by simp [hI.length]
      rw [bcIndex, hlen, List.drop_zero, List.zipWith_append hI.length.symm]
      have : List.zipWith (fun d i => if d = 1 then 0 else i) lead I = I := by
        have := bcIndex_inBounds hI
        rwa [bcIndex, hI.length, Nat.sub_self, List.drop_zero] at this
      rw [this]; rfl
    have hr : Spec.ravel (lead ++ [1]) (I ++ [0]) = Spec.ravel lead I := by
      rw [ravel_append hI.length.symm (by simp)]; simp [Spec.ravel]
    simp only [hbc, hr, fromPosition, List.prod_nil, Nat.div_one, List.getD_cons_zero, hrow I hI]
    exact getD_of_isSome (hst _ (by simp [hn]))

theorem statOf_column {stat : List K → Option K} (hst : ∀ l, l ≠ [] → (stat l).isSome) {x : NdTensor K} {a n c : ℕ} (hx : x.shape = [a, n, c]) (hn : n ≠ 0) :
    ∃ t, statOf stat (some (.permuted [0, 2, 1])) x = some t ∧ t.shape = [a, 1, c] ∧
      ∀ i j k, i < a → j < n → k < c → stat ((List.range n).map fun j => x.data [i, j, k]) = some (t.data (bcIndex t.shape [i, j, k])) := by
  set y : NdTensor K := ⟨[a, c, n], fun idx => x.data (unorder [0, 2, 1] idx)⟩ with hy
  have hperm : x.permute [0, 2, 1] = some y := by
    rw [permute, if_pos (by rw [hx]; exact (by decide : [0, 2, 1].Perm (List.range 3))), hx]; rfl
  set v : NdTensor K := ⟨[a * c, n], fun idx => y.data (fromPosition [a, c, n] (Spec.ravel [a * c, n] idx))⟩ with hv
  have hprod : [a, c, n].prod = a * c * n := by simp [mul_assoc]
  have hview : overOutputFeaturesView (some [0, 2, 1]) x = some v := by
    have hys : y.shape = [a, c, n] := rfl
    simp only [overOutputFeaturesView, hperm, Option.bind_some, hys, List.getLast?_cons_cons, List.getLast?_singleton, if_neg hn, hprod, Nat.mul_div_cancel _ (Nat.pos_of_ne_zero hn), reshape]
    rw [if_pos (by simp [mul_assoc])]
  have hrow : ∀ i k, i < a → k < c → row v (i * c + k) = (List.range n).map fun j => x.data [i, j, k] := by
    intro i k hi hk
    simp only [row, hv, List.getD_cons_succ, List.getD_cons_zero]
    apply List.map_congr_left
    intro j hj
    have hj' : j < n := List.mem_range.1 hj
    have hin : InBounds [a, c, n] [i, k, j] := List.Forall₂.cons hi (List.Forall₂.cons hk (List.Forall₂.cons hj' List.Forall₂.nil))
    have h1 : Spec.ravel [a * c, n] [i * c + k, j] = Spec.ravel [a, c, n] [i, k, j] := by simp [Spec.ravel]
    rw [h1, fromPosition_ravel hin]
    rfl
  refine ⟨⟨[a, 1, c], fun idx => (stat (row v ((fromPosition [a * c] (Spec.ravel [a, 1, c] idx)).getD 0 0))).getD 0⟩, ?_, rfl, ?_⟩
  · simp only [statOf, hview, Option.bind_some, reduceRows_eq hst (show v.shape = [a * c, n] from rfl) hn, reshape]
    rw [hx]
    simp
  · intro i j k hi hj hk
    have hbc : bcIndex [a, 1, c] [i, j, k] = [i, 0, k] := by
      have h1 : (if a = 1 then 0 else i) = i := by split <;> omega
      have h2 : (if c = 1 then 0 else k) = k := by split <;> omega
      simp [bcIndex, h1, h2]
    have hr : Spec.ravel [a, 1, c] [i, 0, k] = i * c + k := by simp [Spec.ravel]
    simp only [hbc, hr, fromPosition, List.prod_nil, Nat.div_one, List.getD_cons_zero, hrow i k hi hk]
    exact getD_of_isSome (hst _ (by simp [hn]))

/-- The statistic in the shape for broadcasting is that of the elements that share a scale. -/
theorem statOf_mates {stat : List K → Option K} (hst : ∀ l, l ≠ [] → (stat l).isSome) (g : Spec.Sharing) {x : NdTensor K} (h : g.Applies x.shape) :
    ∃ t, statOf stat (rowsOf g) x = some t ∧ t.shape = g.shape x.shape ∧ Broadcasts t.shape x.shape ∧
      ∀ idx, InBounds x.shape idx → stat (g.mates x idx) = some (t.data (bcIndex t.shape idx)) := by
  obtain ⟨hp, h⟩ := h
  cases g with
  | tensor =>
    obtain ⟨t, h1, h2, h3⟩ := statOf_tensor hst hp
    exact ⟨t, h1, h2, by rw [h2]; exact broadcasts_nil _, fun idx _ => h3 idx⟩
  | row =>
    obtain ⟨lead, n, hx⟩ : ∃ lead n, x.shape = lead ++ [n] := ⟨_, _, (List.dropLast_append_getLast h).symm⟩
    have hn : n ≠ 0 := by rintro rfl; simp [hx] at hp
    obtain ⟨t, h1, h2, h3⟩ := statOf_row hst hx hn
    refine ⟨t, h1, by rw [h2, Spec.Sharing.shape, hx, List.dropLast_concat], ?_, fun idx hi => ?_⟩
    · rw [h2, hx]
      refine ⟨by simp, ?_⟩
      have h0 : (lead ++ [n]).length - (lead ++ [1]).length = 0 := by simp
      rw [h0, List.drop_zero]
      exact List.rel_append (List.forall₂_same.2 (fun _ _ => Or.inr rfl) : List.Forall₂ (fun a b => a = 1 ∨ a = b) lead lead) (List.Forall₂.cons (Or.inl rfl) List.Forall₂.nil)
    · rw [hx] at hi
      have hne : idx ≠ [] := by rintro rfl; have := hi.length; simp at this
      obtain ⟨I, j, rfl⟩ : ∃ I j, idx = I ++ [j] := ⟨_, _, (List.dropLast_append_getLast hne).symm⟩
      have hlen : I.length = lead.length := by have := hi.length; simpa using this
      have hI : InBounds lead I := by
        have := List.forall₂_take lead.length hi
        rwa [List.take_left' hlen, List.take_left' rfl] at this
      have hj : j < n := by
        have := List.forall₂_drop lead.length hi
        rw [List.drop_left' hlen, List.drop_left' rfl] at this
        exact (List.forall₂_cons.1 this).1
      have := h3 I j hI hj
      simpa [Spec.Sharing.mates, hx] using this
  | column =>
    obtain ⟨a, n, c, hx⟩ : ∃ a n c, x.shape = [a, n, c] := by
      match hs : x.shape, h with
      | [a, n, c], _ => exact ⟨a, n, c, rfl⟩
    have hn : n ≠ 0 := by rintro rfl; simp [hx] at hp
    obtain ⟨t, h1, h2, h3⟩ := statOf_column hst hx hn
    refine ⟨t, h1, by rw [h2, Spec.Sharing.shape, hx]; rfl, ?_, fun idx hi => ?_⟩
    · rw [h2, hx]
      exact ⟨by simp, List.Forall₂.cons (Or.inr rfl) (List.Forall₂.cons (Or.inl rfl) (List.Forall₂.cons (Or.inr rfl) List.Forall₂.nil))⟩
    · rw [hx] at hi
      match idx, hi with
      | [i, j, k], hi =>
        obtain ⟨hi, hi'⟩ := List.forall₂_cons.1 hi
        obtain ⟨hj, hk⟩ := List.forall₂_cons.1 hi'
        have := h3 i j k hi hj (List.forall₂_cons.1 hk).1
        simpa [Spec.Sharing.mates, hx] using this

end Dynamic

end Brevitas
