import Verif.Model.Combine
import Verif.Lemmas.WbLayer
import Verif.Lemmas.SubTensor

/-!
# Lemmas about broadcasting two tensors against each other
-/

set_option linter.unusedSectionVars false

namespace Brevitas.Combine

open NdTensor QuantConv WbLayer SubTensor

theorem bcSize_comm (a b : ℕ) : bcSize a b = bcSize b a := by
  unfold bcSize
  by_cases h : a = b
  · subst h; rfl
  · rw [if_neg h, if_neg (Ne.symm h)]
    by_cases h1 : a = 1
    · subst h1
      by_cases h2 : b = 1
      · exact absurd h2.symm h
      · simp [h2]
    · by_cases h2 : b = 1
      · simp [h1, h2]
      · simp [h1, h2]

theorem bcSizes_comm : ∀ a b : List ℕ, bcSizes a b = bcSizes b a
  | [], [] => rfl
  | [], _ :: _ => rfl
  | _ :: _, [] => rfl
  | a :: as, b :: bs => by simp only [bcSizes, bcSize_comm a b, bcSizes_comm as bs]

theorem bcShape_comm (a b : List ℕ) : bcShape a b = bcShape b a := by
  unfold bcShape
  rw [max_comm, bcSizes_comm]

theorem bcOp_comm {K : Type*} {op : K → K → K} (h : ∀ x y, op x y = op y x) (a b : NdTensor K) : bcOp op a b = bcOp op b a := by
  unfold bcOp
  rw [bcShape_comm]
  congr 1
  funext shape
  congr 1
  funext idx
  exact h _ _

theorem bcSizes_some : ∀ {a b v : List ℕ}, a.length = b.length → bcSizes a b = some v →
    v.length = a.length ∧ ∀ d (h : d < a.length), (a[d] = 1 ∨ a[d] = v.getD d 0)
  | [], [], v, _, h => by simp [bcSizes] at h; subst h; simp
  | a :: as, b :: bs, v, hl, h => by
    simp only [bcSizes] at h
    cases h1 : bcSize a b with
    | none => rw [h1] at h; simp at h
    | some c =>
      rw [h1, Option.bind_some] at h
      cases h2 : bcSizes as bs with
      | none => rw [h2] at h; simp at h
      | some cs =>
        rw [h2, Option.map_some] at h
        obtain rfl := Option.some.inj h
        obtain ⟨i1, i2⟩ := bcSizes_some (by simpa using hl) h2
        refine ⟨by simp [i1], ?_⟩
        intro d hd
        cases d with
        | zero =>
          simp only [List.getElem_cons_zero, List.getD_cons_zero]
          unfold bcSize at h1
          by_cases e : a = b
          · rw [if_pos e] at h1; right; exact Option.some.inj h1
          · rw [if_neg e] at h1
            by_cases e1 : a = 1
            · exact Or.inl e1
            · rw [if_neg e1] at h1
              by_cases e2 : b = 1
              · rw [if_pos e2] at h1; right; exact Option.some.inj h1
              · rw [if_neg e2] at h1; exact absurd h1 (by simp)
        | succ d => simpa using i2 d (by simpa using hd)

theorem padShape_length {n : ℕ} {s : List ℕ} (h : s.length ≤ n) : (padShape n s).length = n := by simp [padShape]; omega

/-- The first operand broadcasts to the shape of the result. -/
theorem broadcasts_left {a b v : List ℕ} (h : bcShape a b = some v) : Broadcasts a v := by
  unfold bcShape at h
  have la := padShape_length (le_max_left a.length b.length)
  have lb := padShape_length (le_max_right a.length b.length)
  obtain ⟨h1, h2⟩ := bcSizes_some (by rw [la, lb]) h
  rw [la] at h1
  rw [broadcasts_iff]
  refine ⟨by rw [h1]; exact le_max_left _ _, fun d hd => ?_⟩
  have := h2 (v.length - a.length + d) (by rw [la]; omega)
  have e : (padShape (max a.length b.length) a)[v.length - a.length + d]'(by rw [la]; omega) = a[d] := by
    simp only [padShape]
    rw [List.getElem_append_right (by simp; omega)]
    simp only [List.length_replicate, h1]
    congr 1
    omega
  rwa [e] at this

theorem broadcasts_right {a b v : List ℕ} (h : bcShape a b = some v) : Broadcasts b v := broadcasts_left (bcShape_comm a b ▸ h)

theorem broadcasts_trans {a b c : List ℕ} (h1 : Broadcasts a b) (h2 : Broadcasts b c) : Broadcasts a c := by
  rw [broadcasts_iff] at h1 h2 ⊢
  obtain ⟨l1, e1⟩ := h1
  obtain ⟨l2, e2⟩ := h2
  refine ⟨by omega, fun d hd => ?_⟩
  rcases e1 d hd with h | h
  · exact Or.inl h
  · rw [List.getD_eq_getElem _ _ (by omega)] at h
    have := e2 (b.length - a.length + d) (by omega)
    rw [h]
    rcases this with h' | h'
    · exact Or.inl h'
    · right; rw [h']; congr 1; omega

/-- Reading through an intermediate shape. -/
theorem bcIndex_bcIndex {s a idx : List ℕ} (h : Broadcasts s a) (hl : a.length ≤ idx.length) : bcIndex s (bcIndex a idx) = bcIndex s idx := by
  rw [broadcasts_iff] at h
  obtain ⟨l, e⟩ := h
  have la : (bcIndex a idx).length = a.length := by simp only [bcIndex, List.length_zipWith, List.length_drop]; omega
  apply List.ext_getElem
  · simp only [bcIndex, List.length_zipWith, List.length_drop] at la ⊢; omega
  · intro d h1 h2
    have hd : d < s.length := by simp only [bcIndex, List.length_zipWith] at h1; omega
    have e' := e d hd
    rw [List.getD_eq_getElem _ _ (by omega)] at e'
    have hx : (bcIndex s (bcIndex a idx))[d] = if s[d] = 1 then 0 else (bcIndex a idx)[a.length - s.length + d]'(by omega) := by
      conv_lhs => simp only [bcIndex.eq_1 s, List.getElem_zipWith, List.getElem_drop]
      simp only [la]
    rw [hx]
    simp only [bcIndex, List.getElem_zipWith, List.getElem_drop]
    by_cases hs : s[d] = 1
    · rw [if_pos hs, if_pos hs]
    · rw [if_neg hs, if_neg hs]
      have := e'.resolve_left hs
      rw [if_neg (by rw [← this]; exact hs)]
      congr 1
      omega

theorem bcShape_self (s : List ℕ) : bcShape s s = some s := bcShape_of_broadcasts (broadcasts_refl s)

variable {K : Type*} [Field K] [LinearOrder K] [IsStrictOrderedRing K] [FloorRing K]

theorem allcloseTensor_self (s : NdTensor K) : allcloseTensor s s = some true := by
  unfold allcloseTensor bcOp
  rw [bcShape_self, Option.map_some, Option.map_some]
  congr 1
  rw [List.all_eq_true]
  intro idx _
  have : ∀ x : K, allclose x x = true := fun x => by
    simp only [allclose, sub_self, abs_zero, decide_eq_true_eq]; positivity
  simp [this]

theorem checkScales_self {q r : ShapedQT K} (h : r.scale = q.scale) : checkScales q r = some () := by
  unfold checkScales
  rw [h, allcloseTensor_self]
  cases q.training <;> rfl

theorem checkZeroPoints_self {q r : ShapedQT K} (h : r.zeroPoint = q.zeroPoint) : checkZeroPoints q r = some () := by
  unfold checkZeroPoints
  rw [h, allcloseTensor_self]
  cases q.training <;> rfl

/-- The sum of two tensors with the same scale. -/
theorem addQT_eq {q r : ShapedQT K} {v : List ℕ} (hs : r.scale = q.scale) (hz : r.zeroPoint.shape = q.zeroPoint.shape) (hv : bcShape q.value.shape r.value.shape = some v) :
    addQT q r = some ⟨⟨v, fun idx => q.value.data (bcIndex q.value.shape idx) + r.value.data (bcIndex r.value.shape idx)⟩,
      ⟨q.scale.shape, fun idx => (q.scale.data (bcIndex q.scale.shape idx) + q.scale.data (bcIndex q.scale.shape idx)) / 2⟩,
      ⟨q.zeroPoint.shape, fun idx => q.zeroPoint.data (bcIndex q.zeroPoint.shape idx) + r.zeroPoint.data (bcIndex q.zeroPoint.shape idx)⟩,
      addBitWidth q.signed r.signed q.bitWidth r.bitWidth, q.signed || r.signed, q.training || r.training⟩ := by
  unfold addQT
  rw [checkScales_self hs, Option.bind_some, bcOp, hv, Option.map_some, Option.bind_some, hs, bcOp, bcShape_self, Option.map_some, Option.bind_some, bcOp, hz, bcShape_self,
    Option.map_some, Option.map_some]

end Brevitas.Combine
