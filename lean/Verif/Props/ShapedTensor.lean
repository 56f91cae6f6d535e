import Verif.Lemmas.ShapedTensor

/-!
# C64 - C65: functions that keep the metadata of a quant tensor
-/

set_option linter.unusedSectionVars false

namespace Brevitas.Props

open Brevitas NdTensor

variable {K : Type*} [Field K] [LinearOrder K] [IsStrictOrderedRing K] [FloorRing K]

/-- The tensor is a quant tensor with integer codes `code`: metadata broadcast to the value, scales are positive, and each element is
`(code - zero_point) * scale` (scale and zero point broadcast to its position) for a code of the declared container. -/
structure HoldsCodes (q : ShapedQT K) (code : List ℕ → ℤ) : Prop where
  scale_shape : Broadcasts q.scale.shape q.value.shape
  zeroPoint_shape : Broadcasts q.zeroPoint.shape q.value.shape
  scale_pos : ∀ idx, InBounds q.value.shape idx → 0 < q.scale.data (bcIndex q.scale.shape idx)
  codes : ∀ idx, InBounds q.value.shape idx →
    q.value.data idx = ((code idx : K) - q.zeroPoint.data (bcIndex q.zeroPoint.shape idx)) * q.scale.data (bcIndex q.scale.shape idx) ∧
    _root_.Spec.IsCode q.signed false q.bitWidth (code idx)

/-- One scale and one zero point for the whole tensor (the shape of per-tensor metadata in Brevitas is `()`). -/
def PerTensor (q : ShapedQT K) : Prop := q.scale.shape = [] ∧ q.zeroPoint.shape = []

/-- Everything but the value. -/
def SameMeta (q r : ShapedQT K) : Prop :=
  r.scale = q.scale ∧ r.zeroPoint = q.zeroPoint ∧ r.bitWidth = q.bitWidth ∧ r.signed = q.signed ∧ r.training = q.training

/-- An 8 bit signed tensor. -/
def int8Tensor (value : NdTensor ℚ) (scale : NdTensor ℚ) : ShapedQT ℚ := ⟨value, scale, ⟨[], fun _ => 0⟩, 8, true, false⟩

/-- One number as a tensor. -/
def scalarTensor (x : ℚ) : NdTensor ℚ := ⟨[], fun _ => x⟩

/-! ## C64 -/

/-- C64: a non-empty quant tensor with codes (per-tensor or per-channel metadata, two bits or more) is valid, and `int()` has its shape and returns its
codes. -/
theorem C64_codes_are_valid (q : ShapedQT K) (code : List ℕ → ℤ) (h : HoldsCodes q code) (hne : ∃ idx, InBounds q.value.shape idx)
    (hb : 2 ≤ q.bitWidth) (atol : K) (ha : 0 < atol) :
    q.isValid atol = some true ∧ ∃ f, q.int atol = some (q.value.shape, f) ∧ ∀ idx, InBounds q.value.shape idx → f idx = code idx :=
  q.valid_of_codes h.scale_shape h.zeroPoint_shape code hne hb ha h.scale_pos h.codes

/-- C64: ReLU of a quant tensor whose zero points are codes has the ReLU of the values, the same metadata, and the larger of code and zero point as
codes. -/
theorem C64_relu (q : ShapedQT K) (code z : List ℕ → ℤ) (h : HoldsCodes q code)
    (hz : ∀ idx, InBounds q.value.shape idx → q.zeroPoint.data (bcIndex q.zeroPoint.shape idx) = z idx ∧
      _root_.Spec.IsCode q.signed false q.bitWidth (z idx)) :
    ∃ r, q.relu = some r ∧ SameMeta q r ∧ r.value.shape = q.value.shape ∧ (∀ idx, r.value.data idx = max (q.value.data idx) 0) ∧
      HoldsCodes r fun idx => max (code idx) (z idx) := by
  refine ⟨_, rfl, ⟨rfl, rfl, rfl, rfl, rfl⟩, rfl, fun _ => rfl, h.scale_shape, h.zeroPoint_shape, h.scale_pos, ?_⟩
  intro idx hidx
  obtain ⟨h1, h2⟩ := h.codes idx hidx
  obtain ⟨h3, h4⟩ := hz idx hidx
  have hs := h.scale_pos idx hidx
  constructor
  · show max (q.value.data idx) 0 =
      (((max (code idx) (z idx) : ℤ) : K) - q.zeroPoint.data (bcIndex q.zeroPoint.shape idx)) * q.scale.data (bcIndex q.scale.shape idx)
    rw [h1, h3]
    rcases le_total (code idx) (z idx) with hle | hle
    · have : ((code idx : ℤ) : K) ≤ z idx := by exact_mod_cast hle
      rw [max_eq_right hle, sub_self, zero_mul, max_eq_right]
      exact mul_nonpos_of_nonpos_of_nonneg (by linarith) hs.le
    · have : ((z idx : ℤ) : K) ≤ code idx := by exact_mod_cast hle
      rw [max_eq_left hle, max_eq_left]
      exact mul_nonneg (by linarith) hs.le
  · show _root_.Spec.IsCode q.signed false q.bitWidth (max (code idx) (z idx))
    rcases max_choice (code idx) (z idx) with e | e <;> rw [e]
    · exact h2
    · exact h4

/-- C64: clamping to limits that are values of codes `a ≤ b` of the element's scale and zero point keeps a quant tensor with the clamped codes. Missing:
other limits, for which the result is not a quant tensor (`C64_hardtanh_off_grid`, `C64_relu6_off_grid`). -/
theorem C64_hardtanh_partial (q : ShapedQT K) (code a b : List ℕ → ℤ) (h : HoldsCodes q code) (minVal maxVal : K)
    (hlim : ∀ idx, InBounds q.value.shape idx → a idx ≤ b idx ∧ _root_.Spec.IsCode q.signed false q.bitWidth (a idx) ∧
      _root_.Spec.IsCode q.signed false q.bitWidth (b idx) ∧
      minVal = ((a idx : K) - q.zeroPoint.data (bcIndex q.zeroPoint.shape idx)) * q.scale.data (bcIndex q.scale.shape idx) ∧
      maxVal = ((b idx : K) - q.zeroPoint.data (bcIndex q.zeroPoint.shape idx)) * q.scale.data (bcIndex q.scale.shape idx)) :
    ∃ r, q.hardtanh minVal maxVal = some r ∧ SameMeta q r ∧ r.value.shape = q.value.shape ∧
      (∀ idx, r.value.data idx = max minVal (min (q.value.data idx) maxVal)) ∧
      HoldsCodes r fun idx => max (a idx) (min (code idx) (b idx)) := by
  refine ⟨_, rfl, ⟨rfl, rfl, rfl, rfl, rfl⟩, rfl, fun _ => rfl, h.scale_shape, h.zeroPoint_shape, h.scale_pos, ?_⟩
  intro idx hidx
  obtain ⟨h1, h2⟩ := h.codes idx hidx
  obtain ⟨hab, ha, hb, hmin, hmax⟩ := hlim idx hidx
  have hs := h.scale_pos idx hidx
  constructor
  · show max minVal (min (q.value.data idx) maxVal) =
      (((max (a idx) (min (code idx) (b idx)) : ℤ) : K) - q.zeroPoint.data (bcIndex q.zeroPoint.shape idx)) * q.scale.data (bcIndex q.scale.shape idx)
    obtain ⟨zp, hzp⟩ : ∃ zp, zp = q.zeroPoint.data (bcIndex q.zeroPoint.shape idx) := ⟨_, rfl⟩
    obtain ⟨s, hse⟩ : ∃ s, s = q.scale.data (bcIndex q.scale.shape idx) := ⟨_, rfl⟩
    rw [h1, hmin, hmax, ← hzp, ← hse]
    rw [← hse] at hs
    have hmono : Monotone fun n : ℤ => ((n : K) - zp) * s := by
      intro m n hmn
      have : (m : K) ≤ n := by exact_mod_cast hmn
      exact mul_le_mul_of_nonneg_right (by linarith) hs.le
    have e1 : (((min (code idx) (b idx) : ℤ) : K) - zp) * s = min (((code idx : K) - zp) * s) (((b idx : K) - zp) * s) := hmono.map_min
    have e2 : (((max (a idx) (min (code idx) (b idx)) : ℤ) : K) - zp) * s =
        max (((a idx : K) - zp) * s) ((((min (code idx) (b idx) : ℤ) : K) - zp) * s) := hmono.map_max
    rw [e2, e1]
  · show _root_.Spec.IsCode q.signed false q.bitWidth (max (a idx) (min (code idx) (b idx)))
    rcases max_choice (a idx) (min (code idx) (b idx)) with e | e <;> rw [e]
    · exact ha
    · rcases min_choice (code idx) (b idx) with e' | e' <;> rw [e']
      · exact h2
      · exact hb

/-- C64: max pooling (any windows of in-bounds positions in the dimensions after the first `lead`, hence also adaptive pooling and nearest neighbour interpolation)
of a quant tensor whose metadata is constant over the pooled dimensions has the metadata of the input and, at each position, the largest code
of the window. -/
theorem C64_max_pool (q : ShapedQT K) (code : List ℕ → ℤ) (h : HoldsCodes q code) (lead : ℕ) (hlead : lead ≤ q.value.shape.length) (outSpatial : List ℕ)
    (hrank : lead + outSpatial.length = q.value.shape.length) (window : List ℕ → List (List ℕ))
    (hwin : ∀ o, InBounds outSpatial o → window o ≠ [] ∧ ∀ s ∈ window o, InBounds (q.value.shape.drop lead) s)
    (hscale : ConstantFrom lead q.value.shape.length q.scale.shape) (hzp : ConstantFrom lead q.value.shape.length q.zeroPoint.shape) :
    ∃ r code', q.maxPool lead outSpatial window = some r ∧ SameMeta q r ∧ r.value.shape = q.value.shape.take lead ++ outSpatial ∧ HoldsCodes r code' ∧
      ∀ pre o, InBounds (q.value.shape.take lead) pre → InBounds outSpatial o →
        (∃ s ∈ window o, code' (pre ++ o) = code (pre ++ s)) ∧ ∀ s ∈ window o, code (pre ++ s) ≤ code' (pre ++ o) := by
  have hlt : (q.value.shape.take lead).length = lead := by rw [List.length_take]; omega
  -- split an index of the result
  have hsplit : ∀ idx, InBounds (q.value.shape.take lead ++ outSpatial) idx →
      InBounds (q.value.shape.take lead) (idx.take lead) ∧ InBounds outSpatial (idx.drop lead) := by
    intro idx hidx
    rw [inBounds_iff_inRange] at hidx
    obtain ⟨i1, i2, h1, h2, rfl⟩ := InRange_append_left hidx
    have hl1 : i1.length = lead := by rw [← List.Forall₂.length_eq h1, hlt]
    rw [inBounds_iff_inRange, inBounds_iff_inRange, ← hl1, List.take_left', List.drop_left']
    · rw [hl1]; exact ⟨h1, h2⟩
    · rfl
    · rfl
  -- the code at each position
  have hkey : ∀ idx, ∃ n : ℤ, InBounds (q.value.shape.take lead ++ outSpatial) idx →
      ((∃ s ∈ window (idx.drop lead), n = code (idx.take lead ++ s)) ∧ (∀ s ∈ window (idx.drop lead), code (idx.take lead ++ s) ≤ n) ∧
      (q.value.maxPool lead outSpatial window).data idx =
        ((n : K) - q.zeroPoint.data (bcIndex q.zeroPoint.shape idx)) * q.scale.data (bcIndex q.scale.shape idx) ∧
      0 < q.scale.data (bcIndex q.scale.shape idx) ∧
      _root_.Spec.IsCode q.signed false q.bitWidth n) := by
    intro idx
    by_cases hidx : InBounds (q.value.shape.take lead ++ outSpatial) idx
    · obtain ⟨h1, h2⟩ := hsplit idx hidx
      obtain ⟨hne, hw⟩ := hwin _ h2
      have hin : ∀ s ∈ window (idx.drop lead), InBounds q.value.shape (idx.take lead ++ s) := by
        intro s hs
        rw [inBounds_iff_inRange]
        have := InRange_append ((inBounds_iff_inRange _ _).mp h1) ((inBounds_iff_inRange _ _).mp (hw s hs))
        rwa [List.take_append_drop] at this
      have hidxl : idx.length = q.value.shape.length := by
        rw [hidx.length, List.length_append, hlt, hrank]
      have hmeta : ∀ shape, ConstantFrom lead q.value.shape.length shape → ∀ s ∈ window (idx.drop lead),
          bcIndex shape (idx.take lead ++ s) = bcIndex shape idx := by
        intro shape hs s hsm
        refine bcIndex_constantFrom hs ((hin s hsm).length) hidxl ?_
        have : (idx.take lead).length = lead := by rw [List.length_take]; omega
        rw [List.take_append_of_le_length (by omega), List.take_take, min_self]
      have hne' : ((window (idx.drop lead)).map fun s => q.value.data (idx.take lead ++ s)) ≠ [] := by simpa using hne
      obtain ⟨hm, hmax⟩ := maxOf_spec hne'
      obtain ⟨s, hs, hse⟩ := List.mem_map.mp hm
      obtain ⟨c1, c2⟩ := h.codes _ (hin s hs)
      have hp := h.scale_pos _ (hin s hs)
      rw [hmeta _ hscale s hs] at hp
      refine ⟨code (idx.take lead ++ s), fun _ => ⟨⟨s, hs, rfl⟩, ?_, ?_, hp, c2⟩⟩
      · intro s' hs'
        have h3 := hmax _ (List.mem_map_of_mem hs')
        rw [← hse, c1, (h.codes _ (hin s' hs')).1, hmeta _ hscale s hs, hmeta _ hscale s' hs', hmeta _ hzp s hs, hmeta _ hzp s' hs'] at h3
        have h4 := le_of_mul_le_mul_right h3 hp
        have h5 : ((code (idx.take lead ++ s') : ℤ) : K) ≤ code (idx.take lead ++ s) := by linarith
        exact_mod_cast h5
      · show maxOf _ = _
        rw [← hse, c1, hmeta _ hscale s hs, hmeta _ hzp s hs]
    · exact ⟨0, fun h' => absurd h' hidx⟩
  choose code' hcode' using hkey
  refine ⟨_, code', rfl, ⟨rfl, rfl, rfl, rfl, rfl⟩, rfl, ⟨?_, ?_, ?_, ?_⟩, ?_⟩
  · exact broadcasts_constantFrom hscale h.scale_shape (by rw [maxPool, List.length_append, hlt, hrank])
      (by rw [maxPool, List.take_append_of_le_length (by omega), List.take_take, min_self])
  · exact broadcasts_constantFrom hzp h.zeroPoint_shape (by rw [maxPool, List.length_append, hlt, hrank])
      (by rw [maxPool, List.take_append_of_le_length (by omega), List.take_take, min_self])
  · intro idx hidx
    exact (hcode' idx hidx).2.2.2.1
  · intro idx hidx
    obtain ⟨-, -, h3, -, h5⟩ := hcode' idx hidx
    exact ⟨h3, h5⟩
  · intro pre o hpre ho
    have hidx : InBounds (q.value.shape.take lead ++ outSpatial) (pre ++ o) := by
      rw [inBounds_iff_inRange]
      exact InRange_append ((inBounds_iff_inRange _ _).mp hpre) ((inBounds_iff_inRange _ _).mp ho)
    have hl : pre.length = lead := by rw [hpre.length, hlt]
    obtain ⟨h1, h2, -⟩ := hcode' (pre ++ o) hidx
    rw [← hl, List.take_left', List.drop_left'] at h1 h2
    · exact ⟨h1, h2⟩
    all_goals rfl

/-- C64: dropout outside training is the identity. Missing: training mode, where kept values are scaled and the result is not a quant tensor
(`C64_dropout_training`). -/
theorem C64_dropout_eval_partial (q : ShapedQT K) (p : K) (keep : List ℕ → Bool) : q.dropout p false keep = some q := rfl

/-- C64: pixel shuffle of a per-tensor quant tensor keeps the metadata and moves each code with its value. Missing: per-channel metadata, for which it fails
(`C64_pixel_shuffle_per_channel`). -/
theorem C64_pixel_shuffle_partial (q : ShapedQT K) (code : List ℕ → ℤ) (h : HoldsCodes q code) (hper : PerTensor q) (r n c' y x : ℕ) (hr : r ≠ 0)
    (hshape : q.value.shape = [n, c' * (r * r), y, x]) :
    ∃ t code', q.pixelShuffle r = some t ∧ SameMeta q t ∧ t.value.shape = [n, c', y * r, x * r] ∧ HoldsCodes t code' ∧
      ∀ i k a b, code' [i, k, a, b] = code [i, k * (r * r) + (a % r) * r + b % r, a / r, b / r] := by
  have hrr : 0 < r * r := Nat.mul_pos (Nat.pos_of_ne_zero hr) (Nat.pos_of_ne_zero hr)
  have hsh : q.value.pixelShuffle r = some ⟨[n, c', y * r, x * r], fun idx => q.value.data (shuffleIndex r idx)⟩ := by
    rw [pixelShuffle, hshape]
    simp only
    rw [if_pos ⟨hr, Nat.mul_mod_left _ _⟩, Nat.mul_div_cancel _ hrr]
  refine ⟨{ q with value := ⟨[n, c', y * r, x * r], fun idx => q.value.data (shuffleIndex r idx)⟩ }, fun idx => code (shuffleIndex r idx),
    by rw [ShapedQT.pixelShuffle, quantInvariantHandler, hsh, Option.map_some], ⟨rfl, rfl, rfl, rfl, rfl⟩, rfl, ⟨?_, ?_, ?_, ?_⟩,
    fun _ _ _ _ => rfl⟩
  · show Broadcasts q.scale.shape _
    rw [hper.1]; exact broadcasts_nil _
  · show Broadcasts q.zeroPoint.shape _
    rw [hper.2]; exact broadcasts_nil _
  all_goals
    intro idx hidx
    have hin : ∃ i k a b, idx = [i, k, a, b] ∧ InBounds q.value.shape [i, k * (r * r) + (a % r) * r + b % r, a / r, b / r] := by
      have hl := hidx.length
      match idx, hidx, hl with
      | [i, k, a, b], hidx, _ =>
        refine ⟨i, k, a, b, rfl, ?_⟩
        simp only [InBounds, List.forall₂_cons, List.Forall₂.nil, and_true] at hidx
        obtain ⟨h1, h2, h3, h4⟩ := hidx
        rw [hshape]
        simp only [InBounds, List.forall₂_cons, List.Forall₂.nil, and_true]
        refine ⟨h1, ?_, Nat.div_lt_of_lt_mul (by rw [Nat.mul_comm]; exact h3), Nat.div_lt_of_lt_mul (by rw [Nat.mul_comm]; exact h4)⟩
        have ha : a % r < r := Nat.mod_lt _ (Nat.pos_of_ne_zero hr)
        have hb : b % r < r := Nat.mod_lt _ (Nat.pos_of_ne_zero hr)
        calc k * (r * r) + (a % r) * r + b % r < k * (r * r) + (a % r) * r + r := by omega
          _ = k * (r * r) + (a % r + 1) * r := by ring
          _ ≤ k * (r * r) + r * r := Nat.add_le_add_left (Nat.mul_le_mul_right _ ha) _
          _ = (k + 1) * (r * r) := by ring
          _ ≤ c' * (r * r) := Nat.mul_le_mul_right _ h2
    obtain ⟨i, k, a, b, rfl, hin⟩ := hin
  · have := h.scale_pos _ hin
    show 0 < q.scale.data (bcIndex q.scale.shape _)
    rw [hper.1, bcIndex_nil] at this ⊢
    exact this
  · have := h.codes _ hin
    rw [hper.1, hper.2, bcIndex_nil] at this
    show _ = (_ - q.zeroPoint.data (bcIndex q.zeroPoint.shape _)) * q.scale.data (bcIndex q.scale.shape _) ∧ _
    rw [hper.1, hper.2, bcIndex_nil]
    exact this

/-- C64: padding the last dimension of a per-tensor quant tensor with the value of a code `n` of the container keeps a quant tensor with the same metadata.
Missing: padding values that are not on the grid, for which it fails (`C64_pad_off_grid`), and per-channel metadata. -/
theorem C64_pad_partial (q : ShapedQT K) (code : List ℕ → ℤ) (h : HoldsCodes q code) (hper : PerTensor q) (hne : ∃ idx, InBounds q.value.shape idx)
    (left right : ℕ) (v : K) (n : ℤ)
    (hv : v = ((n : K) - q.zeroPoint.data []) * q.scale.data []) (hn : _root_.Spec.IsCode q.signed false q.bitWidth n) :
    ∃ t code', q.pad left right v = some t ∧ SameMeta q t ∧
      t.value.shape = q.value.shape.set (q.value.shape.length - 1) (left + q.value.shape.getD (q.value.shape.length - 1) 0 + right) ∧
      HoldsCodes t code' ∧
      ∀ idx, code' idx = if left ≤ idx.getD (q.value.shape.length - 1) 0 ∧
          idx.getD (q.value.shape.length - 1) 0 < left + q.value.shape.getD (q.value.shape.length - 1) 0
        then code (idx.set (q.value.shape.length - 1) (idx.getD (q.value.shape.length - 1) 0 - left)) else n := by
  obtain ⟨i0, hi0⟩ := hne
  have hpos := h.scale_pos i0 hi0
  rw [hper.1, bcIndex_nil] at hpos
  refine ⟨_, _, rfl, ⟨rfl, rfl, rfl, rfl, rfl⟩, rfl, ⟨?_, ?_, ?_, ?_⟩, fun _ => rfl⟩
  · show Broadcasts q.scale.shape _
    rw [hper.1]; exact broadcasts_nil _
  · show Broadcasts q.zeroPoint.shape _
    rw [hper.2]; exact broadcasts_nil _
  · intro idx _
    show 0 < q.scale.data (bcIndex q.scale.shape _)
    rw [hper.1, bcIndex_nil]
    exact hpos
  · intro idx hidx
    show (padLast left right v q.value).data idx = (_ - q.zeroPoint.data (bcIndex q.zeroPoint.shape _)) * q.scale.data (bcIndex q.scale.shape _) ∧ _
    rw [hper.1, hper.2, bcIndex_nil]
    simp only [padLast]
    by_cases hc : left ≤ idx.getD (q.value.shape.length - 1) 0 ∧
          idx.getD (q.value.shape.length - 1) 0 < left + q.value.shape.getD (q.value.shape.length - 1) 0
    · rw [if_pos hc, if_pos hc]
      have hin : InBounds q.value.shape (idx.set (q.value.shape.length - 1) (idx.getD (q.value.shape.length - 1) 0 - left)) := by
        have h1 := InBounds.set (s := q.value.shape) (k := q.value.shape.length - 1) (m := q.value.shape.getD (q.value.shape.length - 1) 0)
          (j := idx.getD (q.value.shape.length - 1) 0 - left) hidx (by omega)
        have h2 : q.value.shape.set (q.value.shape.length - 1) (q.value.shape.getD (q.value.shape.length - 1) 0) = q.value.shape := by
          apply List.ext_getElem (by simp)
          intro d h3 h4
          rw [List.getElem_set]
          by_cases hd : q.value.shape.length - 1 = d
          · rw [if_pos hd]
            subst hd
            exact List.getD_eq_getElem _ _ h4
          · rw [if_neg hd]
        rwa [h2] at h1
      have := h.codes _ hin
      rw [hper.1, hper.2, bcIndex_nil] at this
      exact this
    · rw [if_neg hc, if_neg hc]
      exact ⟨hv, hn⟩

/-- C64 fails for `relu6` unless 6 is on the grid: with scale 4, 8 becomes 6, which has no code; the result claims to be a quant tensor and is not valid. -/
theorem C64_relu6_off_grid :
    (int8Tensor ⟨[1], fun _ => 8⟩ (scalarTensor 4)).isValid (1/5) = some true ∧
    (((int8Tensor ⟨[1], fun _ => 8⟩ (scalarTensor 4)).relu6).bind fun r => r.isValid (1/5)) = some false := by
  constructor <;> decide +kernel

/-- C64 fails for `hardtanh` with its default limits -1 and 1 unless they are on the grid. -/
theorem C64_hardtanh_off_grid :
    (int8Tensor ⟨[1], fun _ => 3/2⟩ (scalarTensor (3/4))).isValid (1/5) = some true ∧
    (((int8Tensor ⟨[1], fun _ => 3/2⟩ (scalarTensor (3/4))).hardtanh (-1) 1).bind fun r => r.isValid (1/5)) = some false := by
  constructor <;> decide +kernel

/-- C64 fails for dropout in training: kept values are divided by `1 - p`, off the grid (`p = 1/4`) or out of range (`p = 1/2`, code 100). -/
theorem C64_dropout_training :
    (((int8Tensor ⟨[1], fun _ => 1⟩ (scalarTensor 1)).dropout (1/4) true fun _ => true).bind fun r => r.isValid (1/5)) = some false ∧
    (((int8Tensor ⟨[1], fun _ => 100⟩ (scalarTensor 1)).dropout (1/2) true fun _ => true).bind fun r => r.isValid (1/5)) = some false := by
  constructor <;> decide +kernel

/-- C64 fails for padding with a value off the grid. -/
theorem C64_pad_off_grid :
    (((int8Tensor ⟨[1], fun _ => 3/2⟩ (scalarTensor (3/4))).pad 1 0 1).bind fun r => r.isValid (1/5)) = some false := by decide +kernel

/-- C64 fails for ReLU when the zero point is not a code: an unsigned 8 bit tensor with zero point 300 and the value -200 (code 100). -/
theorem C64_relu_zero_point_outside :
    (⟨⟨[1], fun _ => -200⟩, scalarTensor 1, scalarTensor 300, 8, false, false⟩ : ShapedQT ℚ).isValid (1/5) = some true ∧
    ((⟨⟨[1], fun _ => -200⟩, scalarTensor 1, scalarTensor 300, 8, false, false⟩ : ShapedQT ℚ).relu.bind fun r => r.isValid (1/5)) = some false := by
  constructor <;> decide +kernel

/-- C64 fails for pixel shuffle with per-channel scales: four channels with scales 1, 2, 4, 8 and codes 1 become one channel of 2 by 2 values, the scales still
have four channels, and the result (which broadcasts to 1 by 4 by 2 by 2) is not valid. -/
theorem C64_pixel_shuffle_per_channel :
    let scale : NdTensor ℚ := ⟨[1, 4, 1, 1], fun idx => 2 ^ idx.getD 1 0⟩
    (int8Tensor scale scale).isValid (1/5) = some true ∧
    ((int8Tensor scale scale).pixelShuffle 2).map (fun r => (r.value.shape, r.scale.shape, r.preRound.map fun p => p.shape)) =
      some ([1, 1, 2, 2], [1, 4, 1, 1], some [1, 4, 2, 2]) ∧
    (((int8Tensor scale scale).pixelShuffle 2).bind fun r => r.isValid (1/5)) = some false := by
  refine ⟨by decide +kernel, by decide +kernel, by decide +kernel⟩

/-- A 1 by 2 by 3 tensor (two channels with scales 1 and 2, three positions). -/
def perChannelDemo : ShapedQT ℚ :=
  int8Tensor ⟨[1, 2, 3], fun idx => (idx.getD 2 0 - 1 : ℚ) * (idx.getD 1 0 + 1)⟩ ⟨[1, 2, 1], fun idx => (idx.getD 1 0 : ℚ) + 1⟩

theorem perChannelDemo_holds : HoldsCodes perChannelDemo fun idx => (idx.getD 2 0 : ℤ) - 1 where
  scale_shape := by simp [perChannelDemo, int8Tensor, Broadcasts]
  zeroPoint_shape := broadcasts_nil _
  scale_pos := by
    intro idx _
    show (0 : ℚ) < _ + 1
    positivity
  codes := by
    intro idx hidx
    have hl := hidx.length
    match idx, hidx, hl with
    | [i, k, p], hidx, _ =>
      simp only [perChannelDemo, int8Tensor, InBounds, List.forall₂_cons, List.Forall₂.nil, and_true] at hidx
      obtain ⟨-, h2, h3⟩ := hidx
      refine ⟨?_, ?_⟩
      · simp [perChannelDemo, int8Tensor, bcIndex]
      · simp only [_root_.Spec.IsCode, _root_.Spec.lo, _root_.Spec.hi, perChannelDemo, int8Tensor]
        simp only [if_true, Bool.false_eq_true, if_false, List.getD_cons_succ, List.getD_cons_zero]
        omega

example : perChannelDemo.isValid (1/5) = some true :=
  (C64_codes_are_valid _ _ perChannelDemo_holds ⟨[0, 0, 0], by decide⟩ (by decide) _ (by norm_num)).1
example : ∃ r, perChannelDemo.relu = some r ∧ HoldsCodes r fun idx => max ((idx.getD 2 0 : ℤ) - 1) 0 := by
  obtain ⟨r, h1, -, -, -, h2⟩ := C64_relu _ _ (fun _ => 0) perChannelDemo_holds
    (fun idx _ => ⟨by simp [perChannelDemo, int8Tensor], by unfold _root_.Spec.IsCode; decide⟩)
  exact ⟨r, h1, h2⟩
/-- Pooling with kernel 2, stride 1. -/
example : ∃ r code', perChannelDemo.maxPool 2 [2] (fun o => [[o.getD 0 0], [o.getD 0 0 + 1]]) = some r ∧ HoldsCodes r code' := by
  obtain ⟨r, c, h1, -, -, h2, -⟩ := C64_max_pool _ _ perChannelDemo_holds 2 (by decide) [2] rfl (fun o => [[o.getD 0 0], [o.getD 0 0 + 1]])
    (by
      intro o ho
      have hl := ho.length
      match o, ho, hl with
      | [a], ho, _ =>
        simp only [InBounds, List.forall₂_cons, List.Forall₂.nil, and_true] at ho
        refine ⟨by simp, ?_⟩
        intro s hs
        simp only [List.mem_cons, List.not_mem_nil, or_false, List.getD_cons_zero] at hs
        rcases hs with rfl | rfl <;> simp [InBounds, perChannelDemo, int8Tensor] <;> omega)
    (Or.inr ⟨rfl, by simp [perChannelDemo, int8Tensor]⟩) (Or.inl rfl)
  exact ⟨r, c, h1, h2⟩

/-- A 1 by 4 by 1 by 1 tensor with one scale. -/
def perTensorDemo : ShapedQT ℚ := int8Tensor ⟨[1, 4, 1, 1], fun idx => (idx.getD 1 0 : ℚ) / 2⟩ (scalarTensor (1/2))

theorem perTensorDemo_holds : HoldsCodes perTensorDemo fun idx => (idx.getD 1 0 : ℤ) where
  scale_shape := broadcasts_nil _
  zeroPoint_shape := broadcasts_nil _
  scale_pos := by
    intro idx _
    show (0 : ℚ) < 1 / 2
    norm_num
  codes := by
    intro idx hidx
    have hl := hidx.length
    match idx, hidx, hl with
    | [i, k, y, x], hidx, _ =>
      simp only [perTensorDemo, int8Tensor, InBounds, List.forall₂_cons, List.Forall₂.nil, and_true] at hidx
      refine ⟨?_, ?_⟩
      · simp [perTensorDemo, int8Tensor, scalarTensor]
        ring
      · simp only [_root_.Spec.IsCode, _root_.Spec.lo, _root_.Spec.hi, perTensorDemo, int8Tensor]
        simp only [if_true, Bool.false_eq_true, if_false, List.getD_cons_succ, List.getD_cons_zero]
        omega

example : ∃ t code', perTensorDemo.pixelShuffle 2 = some t ∧ HoldsCodes t code' ∧ code' [0, 0, 1, 0] = 2 := by
  obtain ⟨t, c, h1, -, -, h2, h3⟩ := C64_pixel_shuffle_partial _ _ perTensorDemo_holds ⟨rfl, rfl⟩ 2 1 1 1 1 (by decide) rfl
  exact ⟨t, c, h1, h2, by rw [h3]; rfl⟩
example : ∃ t code', perTensorDemo.pad 1 2 (-3/2) = some t ∧ HoldsCodes t code' := by
  obtain ⟨t, c, h1, -, -, h2, -⟩ := C64_pad_partial _ _ perTensorDemo_holds ⟨rfl, rfl⟩ ⟨[0, 0, 0, 0], by decide⟩ 1 2 (-3/2) (-3)
    (by norm_num [perTensorDemo, int8Tensor, scalarTensor]) (by unfold _root_.Spec.IsCode; decide)
  exact ⟨t, c, h1, h2⟩
example : ∃ r, perTensorDemo.hardtanh (-1) 1 = some r ∧ HoldsCodes r fun idx => max (-2) (min (idx.getD 1 0 : ℤ) 2) := by
  obtain ⟨t, h1, -, -, -, h2⟩ := C64_hardtanh_partial _ _ (fun _ => -2) (fun _ => 2) perTensorDemo_holds (-1) 1
    (fun idx _ => ⟨by decide, by unfold _root_.Spec.IsCode; decide, by unfold _root_.Spec.IsCode; decide,
      by norm_num [perTensorDemo, int8Tensor, scalarTensor], by norm_num [perTensorDemo, int8Tensor, scalarTensor]⟩)
  exact ⟨t, h1, h2⟩

/-! ## C65 -/

/-- C65: permuting the dimensions of a quant tensor whose scale and zero point are per-tensor or have the rank of the value moves each code, with its value, scale and zero
point, to the permuted position. Missing: metadata of a smaller rank, for which it fails (`C65_lower_rank_scale`). -/
theorem C65_permute_partial (q : ShapedQT K) (code : List ℕ → ℤ) (h : HoldsCodes q code) (dims : List ℕ)
    (hdims : dims.Perm (List.range q.value.shape.length))
    (hscale : q.scale.shape = [] ∨ q.scale.shape.length = q.value.shape.length)
    (hzp : q.zeroPoint.shape = [] ∨ q.zeroPoint.shape.length = q.value.shape.length) :
    ∃ r, q.permute dims = some r ∧ r.bitWidth = q.bitWidth ∧ r.signed = q.signed ∧ r.value.shape = reorder dims q.value.shape ∧
      (∀ idx, InBounds r.value.shape idx → r.value.data idx = q.value.data (unorder dims idx) ∧
        r.scale.data (bcIndex r.scale.shape idx) = q.scale.data (bcIndex q.scale.shape (unorder dims idx)) ∧
        r.zeroPoint.data (bcIndex r.zeroPoint.shape idx) = q.zeroPoint.data (bcIndex q.zeroPoint.shape (unorder dims idx))) ∧
      HoldsCodes r fun idx => code (unorder dims idx) := by
  have hlen : dims.length = q.value.shape.length := by rw [hdims.length_eq, List.length_range]
  have hv : q.value.permute dims = some ⟨reorder dims q.value.shape, fun idx => q.value.data (unorder dims idx)⟩ := by
    rw [NdTensor.permute, if_pos hdims]
  have hrl : (reorder dims q.value.shape).length = q.value.shape.length := by rw [reorder, List.length_map, hlen]
  have hm : ∀ tm : NdTensor K, (tm.shape = [] ∨ tm.shape.length = q.value.shape.length) → Broadcasts tm.shape q.value.shape →
      ∃ tm', metaFollow (reorder dims q.value.shape).length (NdTensor.permute dims) tm = some tm' ∧
        Broadcasts tm'.shape (reorder dims q.value.shape) ∧
        ∀ idx, InBounds (reorder dims q.value.shape) idx →
          tm'.data (bcIndex tm'.shape idx) = tm.data (bcIndex tm.shape (unorder dims idx)) := by
    intro tm htm hb
    by_cases hr : q.value.shape.length = tm.shape.length
    · refine ⟨⟨reorder dims tm.shape, fun idx => tm.data (unorder dims idx)⟩, ?_, reorder_broadcasts hdims hr.symm hb, ?_⟩
      · rw [metaFollow, hrl, if_pos hr, NdTensor.permute, if_pos (by rw [← hr]; exact hdims)]
      · intro idx hidx
        show tm.data (unorder dims (bcIndex (reorder dims tm.shape) idx)) = _
        rw [unorder_bcIndex (by rw [← hr]; exact hdims) (by rw [hidx.length, hrl, hr])]
    · refine ⟨tm, by rw [metaFollow, hrl, if_neg hr], ?_, ?_⟩
      · rcases htm with e | e
        · rw [e]; exact broadcasts_nil _
        · exact absurd e.symm hr
      · intro idx _
        rcases htm with e | e
        · rw [e, bcIndex_nil, bcIndex_nil]
        · exact absurd e.symm hr
  obtain ⟨s', hs1, hs2, hs3⟩ := hm q.scale hscale h.scale_shape
  obtain ⟨z', hz1, hz2, hz3⟩ := hm q.zeroPoint hzp h.zeroPoint_shape
  refine ⟨{ q with value := ⟨reorder dims q.value.shape, fun idx => q.value.data (unorder dims idx)⟩, scale := s', zeroPoint := z' },
    by rw [ShapedQT.permute, hv, Option.bind_some, hs1, Option.bind_some, hz1, Option.map_some], rfl, rfl, rfl,
    fun idx hidx => ⟨rfl, hs3 idx hidx, hz3 idx hidx⟩, hs2, hz2, ?_, ?_⟩
  · intro idx hidx
    show 0 < s'.data (bcIndex s'.shape idx)
    rw [hs3 idx hidx]
    exact h.scale_pos _ (unorder_inBounds hdims hidx)
  · intro idx hidx
    show q.value.data (unorder dims idx) = (_ - z'.data (bcIndex z'.shape idx)) * s'.data (bcIndex s'.shape idx) ∧ _
    rw [hs3 idx hidx, hz3 idx hidx]
    exact h.codes _ (unorder_inBounds hdims hidx)

/-- C65: transposing two dimensions is permuting by their exchange, so the previous theorem applies. Missing: as before. -/
theorem C65_transpose_partial (q : ShapedQT K) (code : List ℕ → ℤ) (h : HoldsCodes q code) (i j : ℕ) (hi : i < q.value.shape.length)
    (hj : j < q.value.shape.length)
    (hscale : q.scale.shape = [] ∨ q.scale.shape.length = q.value.shape.length)
    (hzp : q.zeroPoint.shape = [] ∨ q.zeroPoint.shape.length = q.value.shape.length) :
    ∃ r, q.transpose i j = some r ∧ r.bitWidth = q.bitWidth ∧ r.signed = q.signed ∧
      (∀ idx, InBounds r.value.shape idx → r.value.data idx = q.value.data (unorder (swapDims q.value.shape.length i j) idx)) ∧
      HoldsCodes r fun idx => code (unorder (swapDims q.value.shape.length i j) idx) := by
  have hperm := swapDims_perm hi hj
  obtain ⟨r, h1, h2, h3, -, h5, h6⟩ := C65_permute_partial q code h _ hperm hscale hzp
  refine ⟨r, ?_, h2, h3, fun idx hidx => (h5 idx hidx).1, h6⟩
  rw [← h1, ShapedQT.transpose, ShapedQT.permute, NdTensor.transpose, if_pos ⟨hi, hj⟩, NdTensor.permute, if_pos hperm, Option.bind_some,
    Option.bind_some]
  have hrl : (reorder (swapDims q.value.shape.length i j) q.value.shape).length = q.value.shape.length := by simp [reorder, swapDims]
  have hm : ∀ tm : NdTensor K, metaFollow (reorder (swapDims q.value.shape.length i j) q.value.shape).length (NdTensor.transpose i j) tm =
      metaFollow (reorder (swapDims q.value.shape.length i j) q.value.shape).length (NdTensor.permute (swapDims q.value.shape.length i j)) tm := by
    intro tm
    rw [metaFollow, metaFollow, hrl]
    by_cases hr : q.value.shape.length = tm.shape.length
    · rw [if_pos hr, if_pos hr, NdTensor.transpose, ← hr, if_pos ⟨hi, hj⟩]
    · rw [if_neg hr, if_neg hr]
  simp only
  rw [hm q.scale, hm q.zeroPoint]

/-- C65: reshaping, viewing or flattening a per-tensor quant tensor keeps the metadata and moves each code, with its value, to the position of the same row-major
number. Missing: per-channel metadata, for which it fails (`C65_reshape_per_channel`). -/
theorem C65_reshape_partial (q : ShapedQT K) (code : List ℕ → ℤ) (h : HoldsCodes q code) (hper : PerTensor q) (shape : List ℕ)
    (hprod : shape.prod = q.value.shape.prod) :
    ∃ r code', q.reshape shape = some r ∧ SameMeta q r ∧ r.value.shape = shape ∧ HoldsCodes r code' ∧
      ∀ idx idx', InBounds shape idx → InBounds q.value.shape idx' → _root_.Brevitas.Spec.ravel shape idx = _root_.Brevitas.Spec.ravel q.value.shape idx' →
        r.value.data idx = q.value.data idx' ∧ code' idx = code idx' := by
  have hin : ∀ idx, InBounds shape idx → InBounds q.value.shape (fromPosition q.value.shape (_root_.Brevitas.Spec.ravel shape idx)) := by
    intro idx hidx
    rw [fromPosition_eq, inBounds_iff_inRange]
    apply unravel_inRange
    rw [← hprod]
    exact ravel_lt ((inBounds_iff_inRange _ _).mp hidx)
  refine ⟨{ q with value := ⟨shape, fun idx => q.value.data (fromPosition q.value.shape (_root_.Brevitas.Spec.ravel shape idx))⟩ },
    fun idx => code (fromPosition q.value.shape (_root_.Brevitas.Spec.ravel shape idx)),
    by rw [ShapedQT.reshape, NdTensor.reshape, if_pos hprod, Option.map_some], ⟨rfl, rfl, rfl, rfl, rfl⟩, rfl, ⟨?_, ?_, ?_, ?_⟩, ?_⟩
  · show Broadcasts q.scale.shape _
    rw [hper.1]; exact broadcasts_nil _
  · show Broadcasts q.zeroPoint.shape _
    rw [hper.2]; exact broadcasts_nil _
  · intro idx hidx
    have := h.scale_pos _ (hin idx hidx)
    show 0 < q.scale.data (bcIndex q.scale.shape _)
    rw [hper.1, bcIndex_nil] at this ⊢
    exact this
  · intro idx hidx
    have := h.codes _ (hin idx hidx)
    rw [hper.1, hper.2, bcIndex_nil] at this
    show _ = (_ - q.zeroPoint.data (bcIndex q.zeroPoint.shape _)) * q.scale.data (bcIndex q.scale.shape _) ∧ _
    rw [hper.1, hper.2, bcIndex_nil]
    exact this
  · intro idx idx' hidx hidx' he
    have : fromPosition q.value.shape (_root_.Brevitas.Spec.ravel shape idx) = idx' := by
      rw [fromPosition_eq, he]
      exact unravel_ravel ((inBounds_iff_inRange _ _).mp hidx')
    exact ⟨by show q.value.data _ = _; rw [this], by show code _ = _; rw [this]⟩

/-- C65 fails for scales of a smaller rank than the value: a 2 by 2 tensor with scales 1 and 2 along the last dimension and all codes 1 is valid, its transpose is not (the
scales were not moved). -/
theorem C65_lower_rank_scale :
    let q := int8Tensor ⟨[2, 2], fun idx => (idx.getD 1 0 : ℚ) + 1⟩ ⟨[2], fun idx => (idx.getD 0 0 : ℚ) + 1⟩
    q.isValid (1/5) = some true ∧ ((q.transpose 0 1).bind fun r => r.isValid (1/5)) = some false := by
  constructor <;> decide +kernel

/-- C65 fails for reshaping with per-channel scales: flattening a 2 by 2 tensor with scales 1 and 2 for its rows keeps the 2 by 1 scales, so that the codes have 2 by 4 elements
and are not integers. -/
theorem C65_reshape_per_channel :
    let q := int8Tensor ⟨[2, 2], fun idx => (idx.getD 0 0 : ℚ) + 1⟩ ⟨[2, 1], fun idx => (idx.getD 0 0 : ℚ) + 1⟩
    q.isValid (1/5) = some true ∧ ((q.reshape [4]).bind fun r => r.preRound.map fun p => p.shape) = some [2, 4] ∧
    ((q.reshape [4]).bind fun r => r.isValid (1/5)) = some false := by
  refine ⟨by decide +kernel, by decide +kernel, by decide +kernel⟩

example : ∃ r, perChannelDemo.permute [1, 2, 0] = some r ∧ HoldsCodes r fun idx => ((unorder [1, 2, 0] idx).getD 2 0 : ℤ) - 1 := by
  obtain ⟨r, h1, -, -, -, -, h6⟩ := C65_permute_partial _ _ perChannelDemo_holds [1, 2, 0] (by decide) (Or.inr rfl) (Or.inl rfl)
  exact ⟨r, h1, h6⟩
example : (perChannelDemo.permute [1, 2, 0]).map (fun r => (r.value.shape, r.scale.shape, r.value.data [1, 2, 0], r.scale.data [1, 0, 0])) =
    some ([2, 3, 1], [2, 1, 1], 2, 2) := by decide +kernel
example : (perChannelDemo.transpose 0 1).map (fun r => (r.value.shape, r.scale.shape, r.value.data [1, 0, 2])) = some ([2, 1, 3], [2, 1, 1], 2) := by
  decide +kernel

example : ∃ r code', perTensorDemo.reshape [2, 2] = some r ∧ HoldsCodes r code' ∧ code' [1, 0] = 2 := by
  obtain ⟨r, c, h1, -, -, h2, h3⟩ := C65_reshape_partial _ _ perTensorDemo_holds ⟨rfl, rfl⟩ [2, 2] rfl
  exact ⟨r, c, h1, h2, (h3 [1, 0] [0, 2, 0, 0] (by decide) (by decide) (by decide)).2⟩

end Brevitas.Props
