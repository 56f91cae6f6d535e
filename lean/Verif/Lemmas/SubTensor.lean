import Verif.Spec.SubTensorLayer
import Verif.Lemmas.ShapedTensor

/-!
# Lemmas on slices of the weight
-/

set_option linter.unusedSectionVars false

namespace Brevitas

namespace SubTensor

open NdTensor

/-! ## Slices -/

theorem filter_range (n lo hi : ℕ) : (List.range n).filter (fun i => decide (lo ≤ i ∧ i < hi)) = List.range' (min lo n) (min hi n - min lo n) := by
  induction n with
  | zero => simp
  | succ n ih =>
    rw [List.range_succ, List.filter_append, ih, List.filter_singleton]
    by_cases h : lo ≤ n ∧ n < hi
    · rw [show decide (lo ≤ n ∧ n < hi) = true from by simpa using h, cond_true]
      have e1 : min lo n = lo := by omega
      have e2 : min lo (n + 1) = lo := by omega
      have e3 : min hi n = n := by omega
      have e4 : min hi (n + 1) = n + 1 := by omega
      rw [e1, e2, e3, e4, show n + 1 - lo = (n - lo) + 1 from by omega, List.range'_concat, show lo + 1 * (n - lo) = n from by omega]
    · rw [show decide (lo ≤ n ∧ n < hi) = false from by simpa using h, cond_false, List.append_nil]
      rcases Nat.lt_or_ge n lo with h1 | h1
      · have e1 : min hi n - min lo n = 0 := by omega
        have e2 : min hi (n + 1) - min lo (n + 1) = 0 := by omega
        rw [e1, e2]; rfl
      · have e1 : min hi (n + 1) = min hi n := by omega
        have e2 : min lo (n + 1) = min lo n := by omega
        rw [e1, e2]

theorem selected_eq (n : ℕ) (s : Option (ℤ × ℤ)) : selected n s = List.range' (span n s).1 (span n s).2 := by
  cases s with
  | none => rw [selected, span, List.range_eq_range']
  | some p =>
    obtain ⟨a, b⟩ := p
    rw [selected, span]
    simp only [bound]
    generalize (if a < 0 then a + (n : ℤ) else a) = c
    generalize (if b < 0 then b + (n : ℤ) else b) = d
    have := filter_range n c.toNat d.toNat
    rw [show (fun i : ℕ => decide (c ≤ (i : ℤ) ∧ (i : ℤ) < d)) = fun i => decide (c.toNat ≤ i ∧ i < d.toNat) from by
      funext i
      rw [decide_eq_decide]
      omega]
    exact this

theorem selected_length (n : ℕ) (s : Option (ℤ × ℤ)) : (selected n s).length = (span n s).2 := by rw [selected_eq, List.length_range']

theorem selected_getD {n : ℕ} {s : Option (ℤ × ℤ)} {i : ℕ} (h : i < (span n s).2) : (selected n s).getD i 0 = (span n s).1 + i := by
  rw [selected_eq, List.getD_eq_getElem _ _ (by rw [List.length_range']; exact h), List.getElem_range']
  omega

theorem span_le (n : ℕ) (s : Option (ℤ × ℤ)) : (span n s).1 + (span n s).2 ≤ n ∨ (span n s).2 = 0 := by
  cases s with
  | none => left; simp [span]
  | some p =>
    rw [span]
    simp only [bound, Nat.min_def]
    split_ifs <;> omega

theorem spans_length (shape : List ℕ) (sl : Slices) : (spans shape sl).length = shape.length := by
  induction shape generalizing sl with
  | nil => rfl
  | cons n ns ih => cases sl with
    | nil => rw [spans, List.length_cons, ih, List.length_cons]
    | cons s sl => rw [spans, List.length_cons, ih, List.length_cons]

theorem spans_getElem (shape : List ℕ) (sl : Slices) (d : ℕ) (h : d < (spans shape sl).length) :
    (spans shape sl)[d] = span (shape.getD d 0) (sl.getD d none) := by
  induction shape generalizing sl d with
  | nil => simp [spans] at h
  | cons n ns ih => cases sl with
    | nil => cases d with
      | zero => simp [spans]
      | succ d => simpa [spans] using ih [] d (by simpa [spans] using h)
    | cons s sl => cases d with
      | zero => simp [spans]
      | succ d => simpa [spans] using ih sl d (by simpa [spans] using h)

/-- The index of the source read by a slice. -/
def shift (shape : List ℕ) (sl : Slices) (idx : List ℕ) : List ℕ := List.zipWith (fun p i => p.1 + i) (spans shape sl) idx

/-- The shape of a slice. -/
def cut (shape : List ℕ) (sl : Slices) : List ℕ := (spans shape sl).map Prod.snd

theorem cut_length (shape : List ℕ) (sl : Slices) : (cut shape sl).length = shape.length := by rw [cut, List.length_map, spans_length]

theorem cut_getElem (shape : List ℕ) (sl : Slices) (d : ℕ) (h : d < (cut shape sl).length) : (cut shape sl)[d] = (span (shape.getD d 0) (sl.getD d none)).2 := by
  simp only [cut, List.getElem_map]
  rw [spans_getElem]

theorem shift_length {shape : List ℕ} {sl : Slices} {idx : List ℕ} (h : idx.length = shape.length) : (shift shape sl idx).length = shape.length := by
  rw [shift, List.length_zipWith, spans_length, h, min_self]

theorem shift_getElem (shape : List ℕ) (sl : Slices) (idx : List ℕ) (d : ℕ) (h : d < (shift shape sl idx).length) (hi : d < idx.length) :
    (shift shape sl idx)[d] = (span (shape.getD d 0) (sl.getD d none)).1 + idx[d] := by
  simp only [shift, List.getElem_zipWith]
  rw [spans_getElem]

theorem inBounds_iff (shape idx : List ℕ) : InBounds shape idx ↔ idx.length = shape.length ∧ ∀ d (h : d < idx.length) (h' : d < shape.length), idx[d] < shape[d] := by
  unfold InBounds
  rw [List.forall₂_iff_get]
  simp only [List.get_eq_getElem]

theorem shift_inBounds {shape : List ℕ} {sl : Slices} {idx : List ℕ} (h : InBounds (cut shape sl) idx) : InBounds shape (shift shape sl idx) := by
  rw [inBounds_iff] at h ⊢
  obtain ⟨hl, h⟩ := h
  rw [cut_length] at hl
  refine ⟨shift_length hl, fun d h1 h2 => ?_⟩
  have hd : d < idx.length := by rw [hl]; exact h2
  rw [shift_getElem _ _ _ _ _ hd]
  have := h d hd (by rw [cut_length]; exact h2)
  rw [cut_getElem, List.getD_eq_getElem _ _ h2] at this
  rw [List.getD_eq_getElem _ _ h2]
  have := span_le shape[d] (sl.getD d none)
  omega

theorem sliceTensor_eq {A : Type*} {sl : Slices} {x : NdTensor A} (h : sl.length ≤ x.shape.length) :
    sliceTensor sl x = some ⟨cut x.shape sl, fun idx => x.data (shift x.shape sl idx)⟩ := by
  rw [sliceTensor, if_pos h]; rfl

theorem cut_whole (shape : List ℕ) : cut shape [none] = shape := by
  apply List.ext_getElem (cut_length _ _)
  intro d h1 h2
  rw [cut_getElem, List.getD_eq_getElem _ _ h2]
  cases d <;> simp [span]

theorem shift_whole {shape idx : List ℕ} (h : idx.length = shape.length) : shift shape [none] idx = idx := by
  apply List.ext_getElem ((shift_length h).trans h.symm)
  intro d h1 h2
  rw [shift_getElem _ _ _ _ _ h2]
  cases d <;> simp [span]

/-- What a slice in the sense of the specification is. -/
theorem isSlice_of {K : Type*} {sl : Slices} {t u : NdTensor K} (hs : u.shape = cut t.shape sl)
    (hd : ∀ idx, InBounds u.shape idx → u.data idx = t.data (shift t.shape sl idx)) : IsSlice sl t u where
  rank := by rw [hs, cut_length]
  size d h := by
    rw [hs, List.getD_eq_getElem _ _ (by rw [cut_length]; exact h), cut_getElem, selected_length]
  data idx src hi hl hsrc := by
    rw [hd idx hi]
    have hil : idx.length = t.shape.length := by rw [hi.length, hs, cut_length]
    congr 1
    apply List.ext_getElem ((shift_length hil).trans hl.symm)
    intro d h1 h2
    have hdr : d < t.shape.length := by rw [← hl]; exact h2
    have hdi : d < idx.length := by rw [hil]; exact hdr
    have hb := ((inBounds_iff _ _).1 hi).2 d hdi (by rw [hs, cut_length]; exact hdr)
    have := hsrc d hdr
    rw [List.getD_eq_getElem _ _ h2, List.getD_eq_getElem _ _ hdi] at this
    rw [shift_getElem _ _ _ _ _ hdi, this, selected_getD]
    simp only [hs] at hb
    rwa [cut_getElem] at hb

/-! ## The loop under TorchScript -/

/-- Slices from dimension `i` on. -/
def padded (i : ℕ) (sl : Slices) : Slices := List.replicate i none ++ sl

theorem padded_getD (i : ℕ) (sl : Slices) (d : ℕ) : (padded i sl).getD d none = if d < i then none else sl.getD (d - i) none := by
  rw [padded]
  by_cases h : d < i
  · rw [if_pos h, List.getD_append _ _ _ _ (by simpa using h), List.getD_replicate _ h]
  · rw [if_neg h, List.getD_append_right _ _ _ _ (by simpa using h), List.length_replicate]

theorem cut_eq_of {shape v : List ℕ} {sl : Slices} (hl : v.length = shape.length)
    (h : ∀ d (h : d < v.length), v[d] = (span (shape.getD d 0) (sl.getD d none)).2) : v = cut shape sl := by
  apply List.ext_getElem (hl.trans (cut_length _ _).symm)
  intro d h1 h2
  rw [h d h1, cut_getElem]

theorem cut_nones (shape : List ℕ) (i : ℕ) : cut shape (padded i []) = shape := by
  refine (cut_eq_of rfl ?_).symm
  intro d h
  rw [padded_getD, List.getD_eq_getElem _ _ h]
  by_cases hi : d < i
  · rw [if_pos hi]; rfl
  · rw [if_neg hi]; rfl

theorem shift_nones {shape idx : List ℕ} (i : ℕ) (h : idx.length = shape.length) : shift shape (padded i []) idx = idx := by
  apply List.ext_getElem ((shift_length h).trans h.symm)
  intro d h1 h2
  rw [shift_getElem _ _ _ _ _ h2, padded_getD]
  by_cases hi : d < i
  · rw [if_pos hi]; simp [span]
  · rw [if_neg hi]; simp [span]

theorem sliceJit_eq {A : Type*} (sl : Slices) (i : ℕ) (x : NdTensor A) (h : i + sl.length ≤ x.shape.length) :
    ∃ u, sliceJit i sl x = some u ∧ u.shape = cut x.shape (padded i sl) ∧
      ∀ idx, idx.length = x.shape.length → u.data idx = x.data (shift x.shape (padded i sl) idx) := by
  induction sl generalizing i x with
  | nil =>
    refine ⟨x, rfl, (cut_nones _ _).symm, fun idx hi => ?_⟩
    rw [shift_nones _ hi]
  | cons s sl ih =>
    rw [List.length_cons] at h
    have hp : padded (i + 1) sl = padded i (none :: sl) := by rw [padded, padded, List.replicate_succ', List.append_assoc]; rfl
    cases s with
    | none =>
      obtain ⟨u, h1, h2, h3⟩ := ih (i + 1) x (by omega)
      rw [hp] at h2 h3
      exact ⟨u, by rw [sliceJit, h1], h2, h3⟩
    | some s =>
      have hi : i < x.shape.length := by omega
      rw [sliceJit, sliceDim, if_pos hi, Option.bind_some]
      obtain ⟨u, h1, h2, h3⟩ := ih (i + 1) ⟨x.shape.set i (span (x.shape.getD i 0) (some s)).2, fun idx => x.data (idx.modify i ((span (x.shape.getD i 0) (some s)).1 + ·))⟩
        (by rw [List.length_set]; omega)
      refine ⟨u, h1, ?_, ?_⟩
      · rw [h2]
        apply cut_eq_of
        · rw [cut_length, List.length_set]
        · intro d hd
          have hd' : d < x.shape.length := by rw [cut_length, List.length_set] at hd; exact hd
          rw [cut_getElem, padded_getD, padded_getD, List.getD_eq_getElem (x.shape.set _ _) _ (by rw [List.length_set]; exact hd'), List.getElem_set]
          by_cases hdi : i = d
          · subst hdi
            rw [if_pos rfl, if_pos (by omega), if_neg (by omega), Nat.sub_self]
            rfl
          · rw [if_neg hdi, List.getD_eq_getElem x.shape _ hd']
            by_cases hlt : d < i
            · rw [if_pos (by omega), if_pos hlt]
            · rw [if_neg (by omega), if_neg hlt, show d - i = (d - (i + 1)) + 1 from by omega]; rfl
      · intro idx hidx
        rw [h3 idx (by rw [List.length_set]; exact hidx)]
        have hsl : (shift (x.shape.set i (span (x.shape.getD i 0) (some s)).2) (padded (i + 1) sl) idx).length = x.shape.length := by
          rw [shift_length (by rw [List.length_set]; exact hidx), List.length_set]
        dsimp only
        congr 1
        apply List.ext_getElem
        · rw [List.length_modify, hsl, shift_length hidx]
        · intro d hd1 hd2
          have hd : d < x.shape.length := by rw [← shift_length (sl := padded i (some s :: sl)) hidx]; exact hd2
          have hdi : d < idx.length := by rw [hidx]; exact hd
          rw [List.getElem_modify, shift_getElem _ _ _ _ _ hdi, shift_getElem _ _ _ _ _ hdi, padded_getD, padded_getD,
            List.getD_eq_getElem (x.shape.set _ _) _ (by rw [List.length_set]; exact hd), List.getElem_set, List.getD_eq_getElem x.shape _ hd]
          by_cases hdi : i = d
          · subst hdi
            rw [if_pos rfl, if_pos rfl, if_pos (by omega), if_neg (by omega), Nat.sub_self, List.getD_eq_getElem x.shape _ hd]
            simp [span]
          · rw [if_neg hdi, if_neg hdi]
            by_cases hlt : d < i
            · rw [if_pos (by omega), if_pos hlt]
            · rw [if_neg (by omega), if_neg hlt, show d - i = (d - (i + 1)) + 1 from by omega]; rfl

/-- The slicer in either mode. -/
theorem slicerForward_eq {A : Type*} (jit : Bool) (sl : Slices) (x : NdTensor A) (h : sl.length ≤ x.shape.length) :
    ∃ u, slicerForward jit sl x = some u ∧ u.shape = cut x.shape sl ∧ ∀ idx, idx.length = x.shape.length → u.data idx = x.data (shift x.shape sl idx) := by
  cases jit with
  | true =>
    obtain ⟨u, h1, h2, h3⟩ := sliceJit_eq sl 0 x (by omega)
    exact ⟨u, h1, h2, h3⟩
  | false => exact ⟨_, sliceTensor_eq h, rfl, fun _ _ => rfl⟩

/-! ## Broadcasting -/

theorem broadcasts_iff (s v : List ℕ) : Broadcasts s v ↔ s.length ≤ v.length ∧
    ∀ d (h : d < s.length), s[d] = 1 ∨ s[d] = v.getD (v.length - s.length + d) 0 := by
  unfold Broadcasts
  constructor
  · rintro ⟨h1, h2⟩
    refine ⟨h1, fun d h => ?_⟩
    have := (List.forall₂_iff_get.1 h2).2 d h (by rw [List.length_drop]; omega)
    simp only [List.get_eq_getElem, List.getElem_drop] at this
    rwa [List.getD_eq_getElem _ _ (by omega)]
  · rintro ⟨h1, h2⟩
    refine ⟨h1, List.forall₂_iff_get.2 ⟨by rw [List.length_drop]; omega, fun d h h' => ?_⟩⟩
    have := h2 d h
    simp only [List.get_eq_getElem, List.getElem_drop]
    rwa [List.getD_eq_getElem _ _ (by omega)] at this

theorem broadcasts_refl (v : List ℕ) : Broadcasts v v := by
  rw [broadcasts_iff]
  refine ⟨le_rfl, fun d h => Or.inr ?_⟩
  rw [Nat.sub_self, Nat.zero_add, List.getD_eq_getElem _ _ h]

theorem broadcasts_cut {s v : List ℕ} {sl : Slices} (h : Broadcasts s v) (hk : KeepsWhole v.length s sl) : Broadcasts s (cut v sl) := by
  rw [broadcasts_iff] at h ⊢
  obtain ⟨h1, h2⟩ := h
  rw [cut_length]
  refine ⟨h1, fun d hd => ?_⟩
  by_cases hs : s[d] = 1
  · exact Or.inl hs
  · right
    have e := (h2 d hd).resolve_left hs
    have hw := hk d hd (by rw [List.getD_eq_getElem _ _ hd]; exact hs)
    rw [List.getD_eq_getElem _ _ (by rw [cut_length]; omega), cut_getElem, hw]
    exact e

theorem bcIndex_shift {s v idx : List ℕ} {sl : Slices} (hl : s.length ≤ v.length) (hi : idx.length = v.length) (hk : KeepsWhole v.length s sl) :
    bcIndex s (shift v sl idx) = bcIndex s idx := by
  apply List.ext_getElem
  · simp only [bcIndex, List.length_zipWith, List.length_drop, shift_length hi, hi]
  · intro d h1 h2
    have hd : d < s.length := by simp only [bcIndex, List.length_zipWith] at h1; omega
    simp only [bcIndex, List.getElem_zipWith, List.getElem_drop]
    by_cases hs : s[d] = 1
    · rw [if_pos hs, if_pos hs]
    · rw [if_neg hs, if_neg hs, shift_getElem _ _ _ _ _ (by rw [shift_length hi]; omega)]
      have hw := hk d hd (by rw [List.getD_eq_getElem _ _ hd]; exact hs)
      simp only [shift_length hi, hi]
      rw [hw]
      simp [span]

theorem bcOp_eq {K : Type*} (op : K → K → K) (a b : NdTensor K) (h : Broadcasts b.shape a.shape) :
    ∃ r, bcOp op a b = some r ∧ r.shape = a.shape ∧ ∀ idx, InBounds a.shape idx → r.data idx = op (a.data idx) (b.data (bcIndex b.shape idx)) := by
  refine ⟨⟨a.shape, fun idx => op (a.data (bcIndex a.shape idx)) (b.data (bcIndex b.shape idx))⟩, by rw [bcOp, bcShape_of_broadcasts h, Option.map_some], rfl,
    fun idx hi => ?_⟩
  simp only [bcIndex_inBounds hi]

/-! ## The quantiser -/

variable {K : Type*} [Field K] [LinearOrder K] [IsStrictOrderedRing K] [FloorRing K]

theorem Source.eval_of_allows {s : Source K} {V : List ℕ} {sl : Slices} (h : s.Allows V sl) (w x y : NdTensor K) : s.eval w x = s.eval w y := by
  cases s with
  | const t => rfl
  | tracked f => rfl
  | argument f => exact h.elim

theorem Source.shape_of_allows {s : Source K} {V : List ℕ} {sl : Slices} (h : s.Allows V sl) {w : NdTensor K} (hw : w.shape = V) (x : NdTensor K) :
    Broadcasts (s.eval w x).shape V ∧ KeepsWhole V.length (s.eval w x).shape sl := by
  cases s with
  | const t => exact h
  | tracked f => exact h w hw
  | argument f => exact h.elim

theorem rounding_eq {r : Rounding K} {V : List ℕ} (hr : r.Fits V) (training jit : Bool) (slicers : ℕ → Slices) (sl : Slices)
    (hsl : ∀ value impl m, r = .learned value impl m → slicers m = sl) (hlen : sl.length ≤ V.length) (y : NdTensor K) (hy : y.shape = cut V sl) :
    ∃ z, r.forward training jit slicers y = some z ∧ z.shape = cut V sl ∧
      ∀ idx, InBounds (cut V sl) idx → z.data idx = r.at training (shift V sl idx) (y.data idx) := by
  cases r with
  | plain f => exact ⟨_, rfl, hy, fun idx _ => rfl⟩
  | learned value impl m =>
    have hv : value.shape = V := hr
    have hP : (pForward training value impl).shape = V := by rw [pForward]; split_ifs <;> exact hv
    obtain ⟨p, h1, h2, h3⟩ := slicerForward_eq jit sl (pForward training value impl) (by rw [hP]; exact hlen)
    rw [hP] at h2 h3
    simp only [Rounding.forward]
    rw [hsl value impl m rfl, h1, Option.bind_some]
    obtain ⟨z, e1, e2, e3⟩ := bcOp_eq (· + ·) (y.map fun v => (torchFloor v : K)) p (by rw [h2, NdTensor.map, hy]; exact broadcasts_refl _)
    refine ⟨z, e1, by rw [e2, NdTensor.map, hy], fun idx hi => ?_⟩
    rw [e3 idx (by rw [NdTensor.map, hy]; exact hi), h2, bcIndex_inBounds hi, h3 idx (by rw [hi.length, cut_length])]
    simp only [NdTensor.map, Rounding.at, pForward]
    cases training <;> simp

theorem int_eq {q : Quantizer K} {V : List ℕ} {sl : Slices} (h1 : q.preScale.Allows V sl) (h2 : q.preZeroPoint.Allows V sl) (h3 : q.scale.Allows V sl)
    (h4 : q.zeroPoint.Allows V sl) (hr : q.rounding.Fits V) (training jit : Bool) (slicers : ℕ → Slices)
    (hsl : ∀ value impl m, q.rounding = .learned value impl m → slicers m = sl) (hlen : sl.length ≤ V.length) (w x : NdTensor K) (hw : w.shape = V)
    (hx : x.shape = cut V sl) (hd : ∀ idx, InBounds (cut V sl) idx → x.data idx = w.data (shift V sl idx)) :
    ∃ z, q.int training jit slicers (q.preScale.eval w x) (q.preZeroPoint.eval w x) (q.scale.eval w x) (q.zeroPoint.eval w x) x = some z ∧
      z.shape = cut V sl ∧ ∀ idx, InBounds (cut V sl) idx → z.data idx = q.at training w (shift V sl idx) := by
  have key : ∀ s : Source K, s.Allows V sl → Broadcasts (s.eval w w).shape (cut V sl) ∧
      ∀ idx, InBounds (cut V sl) idx → bcIndex (s.eval w w).shape (shift V sl idx) = bcIndex (s.eval w w).shape idx := by
    intro s hs
    obtain ⟨a, b⟩ := Source.shape_of_allows hs hw w
    exact ⟨broadcasts_cut a b, fun idx hi => bcIndex_shift a.1 (by rw [hi.length, cut_length]) b⟩
  obtain ⟨b1, c1⟩ := key _ h1
  obtain ⟨b2, c2⟩ := key _ h2
  obtain ⟨b3, c3⟩ := key _ h3
  obtain ⟨b4, c4⟩ := key _ h4
  rw [Source.eval_of_allows h1 w x w, Source.eval_of_allows h2 w x w, Source.eval_of_allows h3 w x w, Source.eval_of_allows h4 w x w]
  obtain ⟨y1, e1, s1, d1⟩ := bcOp_eq (· / ·) x (q.preScale.eval w w) (by rw [hx]; exact b1)
  obtain ⟨y2, e2, s2, d2⟩ := bcOp_eq (· + ·) y1 (q.preZeroPoint.eval w w) (by rw [s1, hx]; exact b2)
  obtain ⟨y3, e3, s3, d3⟩ := rounding_eq hr training jit slicers sl hsl hlen y2 (by rw [s2, s1, hx])
  obtain ⟨y4, e4, s4, d4⟩ := bcOp_eq (· - ·) (y3.map fun v => tensorClamp v (minInt q.signed q.narrow q.bitWidth) (maxInt q.signed q.narrow q.bitWidth))
    (q.zeroPoint.eval w w) (by rw [NdTensor.map, s3]; exact b4)
  have s4' : y4.shape = cut V sl := by rw [s4, NdTensor.map, s3]
  obtain ⟨y5, e5, s5, d5⟩ := bcOp_eq (· * ·) y4 (q.scale.eval w w) (by rw [s4']; exact b3)
  refine ⟨y5, ?_, by rw [s5, s4'], fun idx hi => ?_⟩
  · rw [Quantizer.int, e1, Option.bind_some, e2, Option.bind_some, e3, Option.bind_some, e4, Option.bind_some, e5]
  · rw [d5 idx (by rw [s4']; exact hi), d4 idx (by rw [NdTensor.map, s3]; exact hi)]
    simp only [NdTensor.map]
    rw [d3 idx hi, d2 idx (by rw [s1, hx]; exact hi), d1 idx (by rw [hx]; exact hi), hd idx hi]
    simp only [Quantizer.at, c1 idx hi, c2 idx hi, c3 idx hi, c4 idx hi]

/-! ## The layer -/

theorem HasShape.toQuantize {l : Layer K} {V : List ℕ} (h : HasShape l V) : l.toQuantize.shape = V := by
  rw [Layer.toQuantize]
  cases ho : l.weightOrig with
  | none => simp [h.weight]
  | some w =>
    simp only [Option.getD_some]
    split_ifs
    · exact h.weight
    · exact h.orig w ho

/-- The value of element `src` of what the layer's weight is quantised to. -/
def Layer.at (l : Layer K) (src : List ℕ) : K := if l.enabled then l.quant.at l.training l.weight src else l.toQuantize.data src

/-- The scale and zero point. -/
def Layer.scaleZp (l : Layer K) : Option (NdTensor K × NdTensor K) :=
  if l.enabled then some (l.quant.scale.eval l.weight l.weight, l.quant.zeroPoint.eval l.weight l.weight) else none

theorem proxy_eq {l : Layer K} {V : List ℕ} {sl : Slices} (hV : HasShape l V) (hq : l.quant.Allows V sl) (hsl : ∀ m ∈ l.quant.slicerModules, l.slicers m = sl) :
    ∃ x out, sliceTensor sl l.toQuantize = some x ∧ (l.proxy x).1 = some out ∧ out.value.shape = cut V sl ∧
      (∀ idx, InBounds (cut V sl) idx → out.value.data idx = l.at (shift V sl idx)) ∧ out.scaleZp = l.scaleZp ∧
      ∃ c, (l.proxy x).2 = { l with cachedWeight := c } := by
  have hsh := hV.toQuantize
  refine ⟨⟨cut l.toQuantize.shape sl, fun idx => l.toQuantize.data (shift l.toQuantize.shape sl idx)⟩, ?_⟩
  rw [sliceTensor_eq (by rw [hsh]; exact hq.slices)]
  simp only [true_and]
  by_cases he : l.enabled = true
  · have ht : l.toQuantize = l.weight := by rw [Layer.toQuantize, if_pos he]
    rw [ht, hV.weight]
    obtain ⟨z, h1, h2, h3⟩ := int_eq hq.preScale hq.preZeroPoint hq.scale hq.zeroPoint hq.rounding l.training l.jit l.slicers
      (fun value impl m hm => hsl m (by rw [Quantizer.slicerModules, hm]; simp)) hq.slices l.weight
      ⟨cut V sl, fun idx => l.weight.data (shift V sl idx)⟩ hV.weight rfl (fun _ _ => rfl)
    simp only [Layer.proxy, if_pos he, h1]
    refine ⟨_, rfl, h2, ?_, ?_, ?_⟩
    · intro idx hi
      rw [h3 idx hi, Layer.at, if_pos he]
    · rw [Layer.scaleZp, if_pos he, Source.eval_of_allows hq.scale l.weight _ l.weight, Source.eval_of_allows hq.zeroPoint l.weight _ l.weight]
    · split_ifs
      · exact ⟨_, rfl⟩
      · exact ⟨l.cachedWeight, rfl⟩
  · simp only [Layer.proxy, if_neg he]
    refine ⟨_, rfl, by rw [hsh], ?_, ?_, l.cachedWeight, rfl⟩
    · intro idx _
      rw [Layer.at, if_neg he, hsh]
    · rw [Layer.scaleZp, if_neg he]

theorem allows_whole {q : Quantizer K} {V : List ℕ} {sl : Slices} (h : q.Allows V sl) : q.Allows V [none] := by
  have hk : ∀ s, KeepsWhole V.length s [none] := by
    intro s d _ _
    generalize V.length - s.length + d = k
    cases k <;> rfl
  have hs : ∀ s : Source K, s.Allows V sl → s.Allows V [none] := by
    intro s hs
    cases s with
    | const t => exact ⟨hs.1, hk _⟩
    | tracked f => exact fun w hw => ⟨(hs w hw).1, hk _⟩
    | argument f => exact hs.elim
  refine ⟨h.rank, ?_, h.rounding, hs _ h.preScale, hs _ h.preZeroPoint, hs _ h.scale, hs _ h.zeroPoint⟩
  rcases List.exists_cons_of_ne_nil h.rank with ⟨a, as, e⟩
  rw [e]; simp

/-- The whole weight. -/
theorem quantWeight_none {l : Layer K} {V : List ℕ} {sl : Slices} (hV : HasShape l V) (hq : l.quant.Allows V sl) (hs : ∀ m ∈ l.quant.slicerModules, l.slicers m = [none]) :
    ∃ out, (l.quantWeight none).1 = some out ∧ out.value.shape = V ∧ (∀ idx, InBounds V idx → out.value.data idx = l.at idx) ∧ out.scaleZp = l.scaleZp ∧
      ∃ c, (l.quantWeight none).2 = { l with cachedWeight := c } := by
  obtain ⟨x, out, h1, h2, h3, h4, h5, h6⟩ := proxy_eq hV (allows_whole hq) hs
  rw [cut_whole] at h3 h4
  simp only [Layer.quantWeight, h1]
  refine ⟨out, h2, h3, fun idx hi => ?_, h5, h6⟩
  rw [h4 idx hi, shift_whole hi.length]

theorem setSlicers_of {slicers : ℕ → Slices} {ms : List ℕ} {sl : Slices} (h : ∀ m ∈ ms, slicers m = [none]) :
    setSlicers (setSlicers slicers ms sl) ms [none] = slicers := by
  funext m
  rw [setSlicers, setSlicers]
  by_cases hm : m ∈ ms
  · rw [if_pos hm, h m hm]
  · rw [if_neg hm, if_neg hm]

/-- A slice. -/
theorem quantWeight_some {l : Layer K} {V : List ℕ} {sl : Slices} (hV : HasShape l V) (hq : l.quant.Allows V sl) (hs : Steady l) :
    ∃ out, (l.quantWeight (some sl)).1 = some out ∧ out.value.shape = cut V sl ∧
      (∀ idx, InBounds (cut V sl) idx → out.value.data idx = l.at (shift V sl idx)) ∧ out.scaleZp = l.scaleZp ∧
      ∃ c, (l.quantWeight (some sl)).2 = { l with cachedModules := some l.quant.slicerModules, cachedWeight := c } := by
  have hm : l.cachedModules.getD l.quant.slicerModules = l.quant.slicerModules := by
    rcases hs.modules with h | h <;> rw [h] <;> rfl
  obtain ⟨x, out, h1, h2, h3, h4, h5, c, h6⟩ := proxy_eq
    (l := { l with cachedModules := some l.quant.slicerModules, slicers := setSlicers l.slicers l.quant.slicerModules sl }) (V := V) (sl := sl)
    ⟨hV.weight, hV.orig⟩ hq (fun m hm => by simp only [setSlicers]; rw [if_pos hm])
  have hp : Layer.proxy { l with cachedModules := some l.quant.slicerModules, slicers := setSlicers l.slicers l.quant.slicerModules sl } x =
    (some out, { l with cachedModules := some l.quant.slicerModules, slicers := setSlicers l.slicers l.quant.slicerModules sl, cachedWeight := c }) :=
    Prod.ext h2 h6
  simp only [Layer.quantWeight, hm, h1, hp]
  refine ⟨out, rfl, h3, h4, h5, c, ?_⟩
  rw [Option.getD_some, setSlicers_of hs.slicers]

end SubTensor

end Brevitas
