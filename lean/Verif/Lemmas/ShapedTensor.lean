import Verif.Model.ShapedTensor
import Verif.Lemmas.QuantTensor
import Verif.Lemmas.Shape
import Verif.Lemmas.Tensor
import Mathlib.Data.List.GetD

/-!
# Lemmas on shaped quant tensors
-/

set_option linter.unusedSectionVars false

namespace Brevitas

open NdTensor

variable {K : Type*} [Field K] [LinearOrder K] [IsStrictOrderedRing K] [FloorRing K]

theorem mem_indices (shape idx : List ℕ) : idx ∈ indices shape ↔ InBounds shape idx := by
  induction shape generalizing idx with
  | nil =>
    cases idx with
    | nil => simp [indices, InBounds]
    | cons i is => simp [indices, InBounds]
  | cons d ds ih =>
    cases idx with
    | nil => simp [indices, InBounds]
    | cons i is =>
      have h := ih is
      rw [InBounds] at h
      simp only [indices, List.mem_flatMap, List.mem_range, List.mem_map, List.cons.injEq, InBounds, List.forall₂_cons]
      constructor
      · rintro ⟨j, hj, js, hjs, rfl, rfl⟩
        exact ⟨hj, h.mp hjs⟩
      · rintro ⟨h1, h2⟩
        exact ⟨i, h1, is, h.mpr h2, rfl, rfl⟩

theorem inBounds_iff_inRange (shape idx : List ℕ) : InBounds shape idx ↔ Spec.InRange shape idx :=
  ⟨fun h => h.flip, fun h => h.flip⟩

theorem fromPosition_eq (shape : List ℕ) (f : ℕ) : fromPosition shape f = unravel shape f := by
  induction shape generalizing f with
  | nil => rfl
  | cons d ds ih => rw [fromPosition, unravel, ih]

theorem bcIndex_nil (idx : List ℕ) : bcIndex [] idx = [] := by simp [bcIndex]

theorem bcIndex_same {shape idx : List ℕ} (h : shape.length = idx.length) :
    bcIndex shape idx = List.zipWith (fun d i => if d = 1 then 0 else i) shape idx := by
  rw [bcIndex, h, Nat.sub_self, List.drop_zero]

theorem bcIndex_inBounds {shape idx : List ℕ} (h : InBounds shape idx) : bcIndex shape idx = idx := by
  rw [bcIndex_same h.length.symm]
  unfold InBounds at h
  induction h with
  | nil => rfl
  | @cons i d is ds h1 h2 ih =>
    rw [List.zipWith_cons_cons, ih]
    by_cases hd : d = 1
    · rw [if_pos hd]
      congr 1
      omega
    · rw [if_neg hd]

theorem bcSizes_of_forall₂ {v s : List ℕ} (h : List.Forall₂ (fun b a => a = 1 ∨ a = b) v s) : bcSizes v s = some v := by
  induction h with
  | nil => rfl
  | @cons b a bs as h1 h2 ih =>
    rw [bcSizes, ih]
    have : bcSize b a = some b := by
      unfold bcSize
      by_cases hab : b = a
      · rw [if_pos hab]
      · rw [if_neg hab]
        rcases h1 with h1 | h1
        · subst h1
          rw [if_neg hab, if_pos rfl]
        · exact absurd h1.symm hab
    rw [this]
    rfl

theorem bcShape_of_broadcasts {s v : List ℕ} (h : Broadcasts s v) : bcShape v s = some v := by
  obtain ⟨h1, h2⟩ := h
  have hm : max v.length s.length = v.length := max_eq_left h1
  have e1 : padShape v.length v = v := by simp [padShape]
  rw [bcShape, hm, e1]
  apply bcSizes_of_forall₂
  have e2 : v = v.take (v.length - s.length) ++ v.drop (v.length - s.length) := (List.take_append_drop _ _).symm
  rw [padShape]
  conv_lhs => rw [e2]
  apply List.rel_append
  · have : ∀ (l : List ℕ), List.Forall₂ (fun b a => a = 1 ∨ a = b) l (List.replicate l.length 1) := by
      intro l
      induction l with
      | nil => exact List.Forall₂.nil
      | cons x xs ih => exact List.Forall₂.cons (Or.inl rfl) ih
    have hl : (v.take (v.length - s.length)).length = v.length - s.length := by rw [List.length_take]; omega
    have := this (v.take (v.length - s.length))
    rwa [hl] at this
  · exact h2.flip

theorem broadcasts_nil (v : List ℕ) : Broadcasts [] v := ⟨Nat.zero_le _, by simp⟩

/-- The scale used for an element. -/
def ShapedQT.scaleAt (q : ShapedQT K) (idx : List ℕ) : K := q.scale.data (bcIndex q.scale.shape idx)

/-- The zero point used for an element. -/
def ShapedQT.zeroPointAt (q : ShapedQT K) (idx : List ℕ) : K := q.zeroPoint.data (bcIndex q.zeroPoint.shape idx)

theorem ShapedQT.preRound_eq (q : ShapedQT K) (h1 : Broadcasts q.scale.shape q.value.shape) (h2 : Broadcasts q.zeroPoint.shape q.value.shape) :
    ∃ p, q.preRound = some p ∧ p.shape = q.value.shape ∧
      ∀ idx, InBounds q.value.shape idx → p.data idx = q.value.data idx / q.scaleAt idx + q.zeroPointAt idx := by
  rw [ShapedQT.preRound, bcOp, bcShape_of_broadcasts h1, Option.map_some, Option.bind_some, bcOp]
  simp only
  rw [bcShape_of_broadcasts h2, Option.map_some]
  refine ⟨_, rfl, rfl, ?_⟩
  intro idx hidx
  simp only [bcIndex_inBounds hidx]
  rfl

theorem ShapedQT.valid_of_codes (q : ShapedQT K) (h1 : Broadcasts q.scale.shape q.value.shape) (h2 : Broadcasts q.zeroPoint.shape q.value.shape)
    (code : List ℕ → ℤ) (hne : ∃ idx, InBounds q.value.shape idx) (hb : 2 ≤ q.bitWidth) {atol : K} (ha : 0 < atol)
    (hs : ∀ idx, InBounds q.value.shape idx → 0 < q.scaleAt idx)
    (hc : ∀ idx, InBounds q.value.shape idx → q.value.data idx = ((code idx : K) - q.zeroPointAt idx) * q.scaleAt idx ∧
      _root_.Spec.IsCode q.signed false q.bitWidth (code idx)) :
    q.isValid atol = some true ∧ ∃ f, q.int atol = some (q.value.shape, f) ∧ ∀ idx, InBounds q.value.shape idx → f idx = code idx := by
  obtain ⟨p, hp, hsh, hd⟩ := q.preRound_eq h1 h2
  have hd' : ∀ idx, InBounds q.value.shape idx → p.data idx = code idx := by
    intro idx hidx
    rw [hd idx hidx, (hc idx hidx).1, mul_div_cancel_right₀ _ (hs idx hidx).ne', sub_add_cancel]
  have hv : q.isValid atol = some true := by
    rw [ShapedQT.isValid, hp, Option.bind_some, isValid_iff_rounded _ hb]
    constructor
    · obtain ⟨idx, hidx⟩ := hne
      have : idx ∈ indices p.shape := by rw [mem_indices, hsh]; exact hidx
      intro h
      rw [List.map_eq_nil_iff] at h
      rw [h] at this
      simp at this
    · intro y hy
      rw [IntQT.preRound] at hy
      simp only [List.map_map, List.mem_map] at hy
      obtain ⟨idx, hidx, rfl⟩ := hy
      rw [mem_indices, hsh] at hidx
      simp only [Function.comp, div_one, add_zero]
      rw [hd' idx hidx, torchRound_faithful.int]
      exact ⟨by simpa using ha, (hc idx hidx).2⟩
  refine ⟨hv, fun idx => torchRound (p.data idx), ?_, ?_⟩
  · rw [ShapedQT.int, hv]
    simp only [hp, Option.map_some, hsh]
  · intro idx hidx
    simp only [hd' idx hidx, torchRound_faithful.int]

/-! ### Permutation of dimensions -/

theorem unorder_length (dims idx : List ℕ) : (unorder dims idx).length = dims.length := by simp [unorder]

theorem unorder_getD {dims idx : List ℕ} {d : ℕ} (hd : d < dims.length) : (unorder dims idx).getD d 0 = idx.getD (dims.idxOf d) 0 := by
  rw [unorder, List.getD_eq_getElem _ _ (by simpa using hd)]
  simp

theorem reorder_getD {dims l : List ℕ} {p : ℕ} (hp : p < dims.length) : (reorder dims l).getD p 0 = l.getD (dims[p]) 0 := by
  rw [reorder, List.getD_eq_getElem _ _ (by simpa using hp)]
  simp

theorem idxOf_lt_of_perm {dims : List ℕ} {n d : ℕ} (h : dims.Perm (List.range n)) (hd : d < n) :
    ∃ hlt : dims.idxOf d < dims.length, dims[dims.idxOf d] = d := by
  have hm : d ∈ dims := h.mem_iff.mpr (List.mem_range.mpr hd)
  exact ⟨List.idxOf_lt_length_of_mem hm, List.getElem_idxOf _⟩

theorem zipWith_bc_getD (a b : List ℕ) (d : ℕ) (ha : d < a.length) (hb : d < b.length) :
    (List.zipWith (fun d i => if d = 1 then 0 else i) a b).getD d 0 = if a.getD d 0 = 1 then 0 else b.getD d 0 := by
  rw [List.getD_eq_getElem _ _ (by rw [List.length_zipWith]; omega), List.getElem_zipWith, List.getD_eq_getElem _ _ ha,
    List.getD_eq_getElem _ _ hb]

theorem ext_getD {a b : List ℕ} (hl : a.length = b.length) (h : ∀ d, d < a.length → a.getD d 0 = b.getD d 0) : a = b := by
  apply List.ext_getElem hl
  intro d h1 h2
  have := h d h1
  rwa [List.getD_eq_getElem _ _ h1, List.getD_eq_getElem _ _ h2] at this

theorem unorder_bcIndex {dims shape idx : List ℕ} (h : dims.Perm (List.range shape.length)) (hi : idx.length = shape.length) :
    unorder dims (bcIndex (reorder dims shape) idx) = bcIndex shape (unorder dims idx) := by
  have hlen : dims.length = shape.length := by rw [h.length_eq, List.length_range]
  have hr : (reorder dims shape).length = dims.length := by simp [reorder]
  rw [bcIndex_same (by rw [hr, hi, hlen]), bcIndex_same (by rw [unorder_length, hlen])]
  apply ext_getD
  · rw [unorder_length, List.length_zipWith, unorder_length]; omega
  · intro d hd
    rw [unorder_length] at hd
    obtain ⟨hlt, hget⟩ := idxOf_lt_of_perm h (by omega : d < shape.length)
    rw [unorder_getD hd, zipWith_bc_getD _ _ _ (by rw [hr]; exact hlt) (by omega), reorder_getD hlt, hget,
      zipWith_bc_getD _ _ _ (by omega) (by rw [unorder_length]; exact hd), unorder_getD hd]

theorem unorder_inBounds {dims shape idx : List ℕ} (h : dims.Perm (List.range shape.length)) (hi : InBounds (reorder dims shape) idx) :
    InBounds shape (unorder dims idx) := by
  have hlen : dims.length = shape.length := by rw [h.length_eq, List.length_range]
  have hr : (reorder dims shape).length = dims.length := by simp [reorder]
  have hil := hi.length
  unfold InBounds at *
  rw [List.forall₂_iff_get] at *
  refine ⟨by rw [unorder_length, hlen], ?_⟩
  intro d h1 h2
  obtain ⟨hlt, hget⟩ := idxOf_lt_of_perm h h2
  have := hi.2 (dims.idxOf d) (by omega) (by omega)
  have e1 := unorder_getD (idx := idx) (by omega : d < dims.length)
  have e2 := reorder_getD (l := shape) hlt
  rw [hget] at e2
  rw [List.getD_eq_getElem _ _ (by omega), List.getD_eq_getElem _ _ h2] at e2
  rw [List.getD_eq_getElem _ _ h1, List.getD_eq_getElem _ _ (by omega)] at e1
  simp only [List.get_eq_getElem] at *
  rw [e1, ← e2]
  exact this

theorem reorder_broadcasts {dims s v : List ℕ} (h : dims.Perm (List.range v.length)) (hl : s.length = v.length) (hb : Broadcasts s v) :
    Broadcasts (reorder dims s) (reorder dims v) := by
  have hlen : dims.length = v.length := by rw [h.length_eq, List.length_range]
  obtain ⟨-, h2⟩ := hb
  rw [hl, Nat.sub_self, List.drop_zero] at h2
  refine ⟨by simp [reorder], ?_⟩
  rw [reorder, List.length_map, reorder, List.length_map, Nat.sub_self, List.drop_zero]
  rw [List.forall₂_iff_get] at h2 ⊢
  refine ⟨by simp, ?_⟩
  intro p h3 h4
  simp only [List.length_map] at h3
  simp only [List.get_eq_getElem, List.getElem_map]
  have hd : dims[p] < v.length := by
    have := h.mem_iff.mp (List.getElem_mem h3)
    exact List.mem_range.mp this
  have := h2.2 dims[p] (by omega) hd
  rw [List.getD_eq_getElem _ _ (by omega), List.getD_eq_getElem _ _ hd]
  exact this

theorem swapDims_perm {n i j : ℕ} (hi : i < n) (hj : j < n) : (swapDims n i j).Perm (List.range n) := by
  have hn : (swapDims n i j).Nodup := by
    unfold swapDims
    apply List.Nodup.map_on _ List.nodup_range
    intro a _ b _ h
    split_ifs at h <;> omega
  refine (List.perm_ext_iff_of_nodup hn List.nodup_range).mpr ?_
  intro d
  simp only [swapDims, List.mem_map, List.mem_range]
  constructor
  · rintro ⟨a, ha, rfl⟩
    split_ifs <;> omega
  · intro hd
    by_cases h1 : d = i
    · refine ⟨j, hj, ?_⟩
      by_cases h2 : j = i
      · rw [if_pos h2]; omega
      · rw [if_neg h2, if_pos rfl]; exact h1.symm
    · by_cases h2 : d = j
      · exact ⟨i, hi, by rw [if_pos rfl]; exact h2.symm⟩
      · exact ⟨d, hd, by rw [if_neg h1, if_neg h2]⟩

/-! ### Windows -/

theorem foldl_max_mem (l : List K) (x : K) : l.foldl max x = x ∨ l.foldl max x ∈ l := by
  induction l generalizing x with
  | nil => exact Or.inl rfl
  | cons y l ih =>
    rw [List.foldl_cons]
    rcases ih (max x y) with h | h
    · rcases max_choice x y with e | e
      · left; rw [h, e]
      · right; rw [h, e]; exact List.mem_cons_self
    · right; exact List.mem_cons_of_mem _ h

theorem le_foldl_max (l : List K) (x : K) : x ≤ l.foldl max x ∧ ∀ y ∈ l, y ≤ l.foldl max x := by
  induction l generalizing x with
  | nil => exact ⟨le_refl _, by simp⟩
  | cons y l ih =>
    rw [List.foldl_cons]
    obtain ⟨h1, h2⟩ := ih (max x y)
    refine ⟨(le_max_left _ _).trans h1, ?_⟩
    intro z hz
    rcases List.mem_cons.mp hz with rfl | hz
    · exact (le_max_right _ _).trans h1
    · exact h2 z hz

theorem maxOf_spec {l : List K} (h : l ≠ []) : maxOf l ∈ l ∧ ∀ y ∈ l, y ≤ maxOf l := by
  cases l with
  | nil => exact absurd rfl h
  | cons x l =>
    rw [maxOf]
    constructor
    · rcases foldl_max_mem l x with e | e
      · rw [e]; exact List.mem_cons_self
      · exact List.mem_cons_of_mem _ e
    · intro y hy
      rcases List.mem_cons.mp hy with rfl | hy
      · exact (le_foldl_max l y).1
      · exact (le_foldl_max l x).2 y hy

/-- Metadata that is one value, or has the rank of the value and size one in all the dimensions from `lead` on. -/
def ConstantFrom (lead : ℕ) (rank : ℕ) (shape : List ℕ) : Prop :=
  shape = [] ∨ (shape.length = rank ∧ ∀ d ∈ shape.drop lead, d = 1)

theorem bcIndex_constantFrom {lead rank : ℕ} {shape i j : List ℕ} (h : ConstantFrom lead rank shape) (hi : i.length = rank) (hj : j.length = rank)
    (hij : i.take lead = j.take lead) : bcIndex shape i = bcIndex shape j := by
  rcases h with rfl | ⟨hl, h1⟩
  · rw [bcIndex_nil, bcIndex_nil]
  · rw [bcIndex_same (by omega), bcIndex_same (by omega)]
    apply ext_getD
    · simp [hi, hj]
    · intro d hd
      rw [List.length_zipWith] at hd
      rw [zipWith_bc_getD _ _ _ (by omega) (by omega), zipWith_bc_getD _ _ _ (by omega) (by omega)]
      by_cases hdl : d < lead
      · have e1 : (i.take lead).getD d 0 = i.getD d 0 := by
          rw [List.getD_eq_getElem _ _ (by rw [List.length_take]; omega), List.getElem_take, List.getD_eq_getElem _ _ (by omega)]
        have e2 : (j.take lead).getD d 0 = j.getD d 0 := by
          rw [List.getD_eq_getElem _ _ (by rw [List.length_take]; omega), List.getElem_take, List.getD_eq_getElem _ _ (by omega)]
        rw [← e1, ← e2, hij]
      · have : shape.getD d 0 = 1 := by
          rw [List.getD_eq_getElem _ _ (by omega)]
          apply h1
          rw [List.mem_drop_iff_getElem]
          exact ⟨d - lead, by omega, by congr 1; omega⟩
        rw [if_pos this, if_pos this]

theorem broadcasts_constantFrom {lead : ℕ} {shape v w : List ℕ} (h : ConstantFrom lead v.length shape) (hb : Broadcasts shape v)
    (hl : w.length = v.length) (ht : w.take lead = v.take lead) : Broadcasts shape w := by
  rcases h with rfl | ⟨hlen, h1⟩
  · exact broadcasts_nil _
  · obtain ⟨-, h2⟩ := hb
    rw [hlen, Nat.sub_self, List.drop_zero] at h2
    refine ⟨by omega, ?_⟩
    rw [hl, hlen, Nat.sub_self, List.drop_zero]
    rw [List.forall₂_iff_get] at h2 ⊢
    refine ⟨by omega, ?_⟩
    intro d h3 h4
    have := h2.2 d h3 (by omega)
    simp only [List.get_eq_getElem] at *
    by_cases hd : d < lead
    · have e : w[d] = v[d]'(by omega) := by
        have e1 : (w.take lead)[d]'(by rw [List.length_take]; omega) = w[d] := List.getElem_take
        have e2 : (v.take lead)[d]'(by rw [List.length_take]; omega) = v[d]'(by omega) := List.getElem_take
        rw [← e1, ← e2]
        simp only [ht]
      rw [e]; exact this
    · left
      apply h1
      rw [List.mem_drop_iff_getElem]
      exact ⟨d - lead, by omega, by congr 1; omega⟩

end Brevitas
