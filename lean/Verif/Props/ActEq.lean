import Verif.Lemmas.ActEq
import Verif.Lemmas.ShapedTensor
import Verif.Lemmas.EqualizeRange
import Mathlib.Tactic.NormNum

/-!
# C75, C76: layerwise activation equalisation
-/

set_option linter.unusedSectionVars false

namespace Brevitas.Props

open Brevitas Net Equalize ActEq NdTensor

/-! ## Lemmas -/

theorem sinkChannels_eq {K : Type*} (L : Layer K) (hk : inputAxisIsOutput L.kind ≠ none) : sinkChannels L = inputChannels L := by
  unfold sinkChannels inputChannels
  cases h : L.kind with
  | grouped n => rw [h] at hk; simp [inputAxisIsOutput] at hk
  | _ => rfl

theorem maxShapeSinks_layer {K : Type*} (L : Layer K) : maxShapeSinks (layerRegion L) = sinkChannels L := by
  simp [maxShapeSinks, layerRegion]

theorem hookAll_shape {K : Type*} [Field K] [LinearOrder K] [IsStrictOrderedRing K] [FloorRing K] (stat : StatKind) :
    ∀ (batches : List (NdTensor K)) (acc : Option (NdTensor K)) (act : NdTensor K),
      hookAll stat acc batches = some (some act) →
      (∀ a, acc = some a → act.shape = a.shape) ∧ ∀ b ∈ batches, ∃ n, b.shape = n :: act.shape := by
  intro batches
  induction batches with
  | nil =>
    intro acc act h
    simp only [hookAll, Option.some.injEq] at h
    refine ⟨fun a ha => ?_, by simp⟩
    rw [h] at ha
    simp only [Option.some.injEq] at ha
    rw [ha]
  | cons x xs ih =>
    intro acc act h
    rw [hookAll] at h
    obtain ⟨acc', h1, h2⟩ := Option.bind_eq_some_iff.mp h
    obtain ⟨ih1, ih2⟩ := ih acc' act h2
    unfold hookStep reduceBatch at h1
    cases hx : x.shape with
    | nil => rw [hx] at h1; simp at h1
    | cons n shape =>
      rw [hx] at h1
      cases acc with
      | none =>
        simp only [Option.some.injEq] at h1
        have hs := ih1 _ h1.symm
        dsimp only at hs
        refine ⟨by simp, fun b hb => ?_⟩
        rcases List.mem_cons.mp hb with rfl | hb
        · exact ⟨n, by rw [hx, hs]⟩
        · exact ih2 b hb
      | some a0 =>
        simp only at h1
        by_cases he : a0.shape = shape
        · rw [if_pos he] at h1
          simp only [Option.some.injEq] at h1
          have hs := ih1 _ h1.symm
          dsimp only at hs
          refine ⟨fun a ha => ?_, fun b hb => ?_⟩
          · simp only [Option.some.injEq] at ha
            rw [hs, ha]
          · rcases List.mem_cons.mp hb with rfl | hb
            · exact ⟨n, by rw [hx, hs, he]⟩
            · exact ih2 b hb
        · rw [if_neg he] at h1
          simp at h1

theorem calibrate_shape {K : Type*} [Field K] [LinearOrder K] [IsStrictOrderedRing K] [FloorRing K] {stat : StatKind}
    {batches : List (NdTensor K)} {act : NdTensor K} (h : calibrate stat batches = some act) :
    batches ≠ [] ∧ ∀ b ∈ batches, ∃ n, b.shape = n :: act.shape := by
  unfold calibrate at h
  cases hh : hookAll stat none batches with
  | none => rw [hh] at h; simp at h
  | some a =>
    rw [hh] at h
    simp only [Option.bind_some, id] at h
    subst h
    refine ⟨?_, (hookAll_shape stat batches none act hh).2⟩
    rintro rfl
    simp [hookAll] at hh

theorem dimOf_last (n : ℕ) (hn : 0 < n) : dimOf n (actAxis .linear) = some (n - 1) := by
  show dimOf n (-1) = some (n - 1)
  unfold dimOf
  rw [if_neg (by decide), if_pos (by omega)]
  congr 1
  omega

theorem dimOf_first {d : ℕ} (n : ℕ) (hn : 0 < n) : dimOf n (actAxis (.conv d)) = some 0 := by
  show dimOf n 0 = some 0
  unfold dimOf
  rw [if_pos (by decide), if_pos (by omega)]
  rfl

theorem factor_one {a b : ℝ} (ha : epsilon < a) (hb : epsilon < b) : factor 1 a b = a := by
  unfold factor
  have hn : ¬ (b ≤ epsilon ∨ a ≤ epsilon) := by
    push Not
    exact ⟨hb, ha⟩
  dsimp only
  rw [if_neg hn, if_neg hn]
  simp

theorem sinksRange_layer (stat : StatKind) (L : Layer ℝ) (c : ℕ) (hc : c < sinkChannels L) :
    sinksRange ⟨false, stat, .vaiq⟩ (fun _ => L) (layerRegion L) c = stat.fn (sinkRow L c) := by
  show sinksRangeStep ⟨false, stat, .vaiq⟩ (fun _ => L) (fun _ => (-1 : ℝ)) (0, ⟨0, sinkChannels L, 0⟩) c = _
  unfold sinksRangeStep
  rw [if_pos (by simpa using hc)]
  simp only [Nat.zero_add, Nat.sub_zero]
  exact max_eq_right (le_trans (by norm_num) (stat_nonneg stat _))

/-- After calibration with the largest absolute value, the statistic of an index bounds all the values, and is one of them if not zero. -/
theorem hookAll_maxabs : ∀ (batches : List (NdTensor ℝ)) (acc : Option (NdTensor ℝ)) (act : NdTensor ℝ),
    hookAll .maxabs acc batches = some (some act) → ∀ idx,
      (∀ a, acc = some a → a.data idx ≤ act.data idx) ∧
      (∀ b ∈ batches, ∀ n, n < b.shape.headD 0 → |b.data (n :: idx)| ≤ act.data idx) ∧
      ((∃ a, acc = some a ∧ act.data idx = a.data idx) ∨ act.data idx = 0 ∨
        ∃ b ∈ batches, ∃ n, n < b.shape.headD 0 ∧ act.data idx = |b.data (n :: idx)|) := by
  intro batches
  induction batches with
  | nil =>
    intro acc act h idx
    simp only [hookAll, Option.some.injEq] at h
    exact ⟨fun a ha => by rw [h] at ha; simp only [Option.some.injEq] at ha; rw [ha], by simp, Or.inl ⟨act, h, rfl⟩⟩
  | cons x xs ih =>
    intro acc act h idx
    rw [hookAll] at h
    obtain ⟨acc', h1, h2⟩ := Option.bind_eq_some_iff.mp h
    obtain ⟨ih1, ih2, ih3⟩ := ih acc' act h2 idx
    unfold hookStep reduceBatch at h1
    cases hx : x.shape with
    | nil => rw [hx] at h1; simp at h1
    | cons n shape =>
      rw [hx] at h1
      obtain ⟨row, hrow⟩ : ∃ row, row = (List.range n).map fun b => x.data (b :: idx) := ⟨_, rfl⟩
      have hle : ∀ j < n, |x.data (j :: idx)| ≤ channelMaxabs row := fun j hj =>
        (channelMaxabs_spec row (by rw [hrow]; simp only [ne_eq, List.map_eq_nil_iff, List.range_eq_nil]; omega)).2 _
          (by rw [hrow]; exact List.mem_map.mpr ⟨j, by simpa using hj, rfl⟩)
      have hat : channelMaxabs row = 0 ∨ ∃ j < n, channelMaxabs row = |x.data (j :: idx)| := by
        by_cases h0 : row = []
        · left
          rw [h0]
          rfl
        · right
          obtain ⟨⟨v, hv, hve⟩, -⟩ := channelMaxabs_spec row h0
          rw [hrow] at hv
          obtain ⟨j, hj, rfl⟩ := List.mem_map.mp hv
          exact ⟨j, by simpa using hj, hve.symm⟩
      have hup : channelMaxabs row = 0 ∨ ∃ b ∈ x :: xs, ∃ j, j < b.shape.headD 0 ∧ channelMaxabs row = |b.data (j :: idx)| := by
        rcases hat with h | ⟨j, hj, h⟩
        · exact Or.inl h
        · exact Or.inr ⟨x, by simp, j, by rw [hx]; exact hj, h⟩
      have hrest : (act.data idx = 0 ∨ ∃ b ∈ xs, ∃ n, n < b.shape.headD 0 ∧ act.data idx = |b.data (n :: idx)|) →
          act.data idx = 0 ∨ ∃ b ∈ x :: xs, ∃ n, n < b.shape.headD 0 ∧ act.data idx = |b.data (n :: idx)| := by
        rintro (h | ⟨b, hb, j, hj, h⟩)
        · exact Or.inl h
        · exact Or.inr ⟨b, by simp [hb], j, hj, h⟩
      have hacc : ∃ s, acc' = some s ∧ channelMaxabs row ≤ s.data idx ∧ (∀ a, acc = some a → a.data idx ≤ s.data idx) ∧
          (s.data idx = channelMaxabs row ∨ ∃ a, acc = some a ∧ s.data idx = a.data idx) := by
        cases acc with
        | none =>
          simp only [Option.some.injEq] at h1
          exact ⟨_, h1.symm, by rw [hrow]; exact le_refl _, by simp, Or.inl (by rw [hrow]; rfl)⟩
        | some a0 =>
          simp only at h1
          by_cases he : a0.shape = shape
          · rw [if_pos he] at h1
            simp only [Option.some.injEq] at h1
            refine ⟨_, h1.symm, ?_, ?_, ?_⟩
            · rw [hrow]; exact le_max_right _ _
            · rintro a rfl'
              simp only [Option.some.injEq] at rfl'
              rw [← rfl']
              exact le_max_left _ _
            · rcases max_choice (a0.data idx) (StatKind.fn .maxabs ((List.range n).map fun b => x.data (b :: idx))) with h | h
              · exact Or.inr ⟨a0, rfl, h⟩
              · exact Or.inl (by rw [hrow]; exact h)
          · rw [if_neg he] at h1
            simp at h1
      obtain ⟨s, hs, hs1, hs2, hs3⟩ := hacc
      have hsa := ih1 s hs
      refine ⟨fun a ha => le_trans (hs2 a ha) hsa, ?_, ?_⟩
      · intro b hb j hj
        rcases List.mem_cons.mp hb with rfl | hb
        · rw [hx] at hj
          exact le_trans (hle j hj) (le_trans hs1 hsa)
        · exact ih2 b hb j hj
      · rcases ih3 with ⟨a, ha, hav⟩ | h3
        · rw [hs] at ha
          simp only [Option.some.injEq] at ha
          subst ha
          rcases hs3 with h | ⟨a, ha, h⟩
          · rw [hav, h]
            exact Or.inr hup
          · exact Or.inl ⟨a, ha, by rw [hav, h]⟩
        · exact Or.inr (hrest h3)

theorem calibrate_maxabs {batches : List (NdTensor ℝ)} {act : NdTensor ℝ} (h : calibrate .maxabs batches = some act) (idx : List ℕ) :
    (∀ b ∈ batches, ∀ n, n < b.shape.headD 0 → |b.data (n :: idx)| ≤ act.data idx) ∧
    (act.data idx = 0 ∨ ∃ b ∈ batches, ∃ n, n < b.shape.headD 0 ∧ act.data idx = |b.data (n :: idx)|) := by
  unfold calibrate at h
  cases hh : hookAll .maxabs none batches with
  | none => rw [hh] at h; simp at h
  | some a =>
    rw [hh] at h
    simp only [Option.bind_some, id] at h
    subst h
    obtain ⟨-, h2, h3⟩ := hookAll_maxabs batches none act hh idx
    refine ⟨h2, ?_⟩
    rcases h3 with ⟨a, ha, -⟩ | h3
    · simp at ha
    · exact h3

theorem inBounds_eraseIdx (s i : List ℕ) (k : ℕ) (h : InBounds s i) : InBounds (s.eraseIdx k) (i.eraseIdx k) := by
  induction h generalizing k with
  | nil => simp [InBounds]
  | cons h1 h2 ih =>
    cases k with
    | zero => exact h2
    | succ k => exact .cons h1 (ih k)

theorem mem_actRow {act : NdTensor ℝ} {k c : ℕ} (hk : k < act.shape.length) (hc : c < act.shape.getD k 0) (v : ℝ) :
    v ∈ actRow act k c ↔ ∃ i, InBounds act.shape i ∧ i.getD k 0 = c ∧ act.data i = v := by
  unfold actRow
  rw [List.mem_map]
  constructor
  · rintro ⟨idx, hidx, rfl⟩
    rw [mem_indices] at hidx
    have hl : k ≤ idx.length := by
      rw [hidx.length_eq, List.length_eraseIdx_of_lt hk]
      omega
    exact ⟨_, inBounds_insertIdx _ _ _ _ hk hc hidx, getD_insertIdx _ _ _ hl, rfl⟩
  · rintro ⟨i, hi, hic, rfl⟩
    have hlt : k < i.length := by rw [hi.length_eq]; exact hk
    refine ⟨i.eraseIdx k, ?_, ?_⟩
    · rw [mem_indices]
      exact inBounds_eraseIdx _ _ _ hi
    · rw [List.getD_eq_getElem _ _ hlt] at hic
      rw [← hic, List.insertIdx_eraseIdx_getElem]

/-- The statistic of a channel bounds all its values in the calibration inputs, and is one of them if not zero. -/
theorem channel_stat {batches : List (NdTensor ℝ)} {act : NdTensor ℝ} (h : calibrate .maxabs batches = some act) {k c : ℕ}
    (hk : k < act.shape.length) (hc : c < act.shape.getD k 0) :
    (∀ b ∈ batches, ∀ i, InBounds b.shape i → i.getD (k + 1) 0 = c → |b.data i| ≤ channelMaxabs (actRow act k c)) ∧
    (channelMaxabs (actRow act k c) = 0 ∨ ∃ b ∈ batches, ∃ i, InBounds b.shape i ∧ i.getD (k + 1) 0 = c ∧
      |b.data i| = channelMaxabs (actRow act k c)) := by
  have hs := (calibrate_shape h).2
  constructor
  · intro b hb i hi hic
    obtain ⟨n, hn⟩ := hs b hb
    rw [hn] at hi
    cases hi with
    | cons hj hi =>
      rename_i j i
      have hm : act.data i ∈ actRow act k c := (mem_actRow hk hc _).2 ⟨i, hi, by simpa using hic, rfl⟩
      refine le_trans ?_ ((channelMaxabs_spec _ (List.ne_nil_of_mem hm)).2 _ hm)
      exact le_trans ((calibrate_maxabs h i).1 b hb j (by rw [hn]; exact hj)) (le_abs_self _)
  · by_cases h0 : actRow act k c = []
    · left
      rw [h0]
      rfl
    · obtain ⟨⟨v, hv, hve⟩, -⟩ := channelMaxabs_spec _ h0
      obtain ⟨i, hi, hic, rfl⟩ := (mem_actRow hk hc _).1 hv
      rcases (calibrate_maxabs h i).2 with h1 | ⟨b, hb, n, hn, h1⟩
      · left
        rw [← hve, h1, abs_zero]
      · right
        obtain ⟨m, hm⟩ := hs b hb
        rw [hm] at hn
        refine ⟨b, hb, n :: i, by rw [hm]; exact .cons hn hi, by simpa using hic, ?_⟩
        rw [← hve, h1, abs_abs]

/-! ## C75 -/

/-- The positions of a tensor of some shape: every position number stands for an index inside the shape. -/
def ValidPositions {K : Type*} (T : TensorLayer K) (shape : List ℕ) : Prop :=
  ∀ p, InBounds (shape.eraseIdx (T.type.channelDim shape.length)) (T.position shape p)

/-- Layerwise activation equalisation does not change what a linear or convolutional layer computes: for every calibration data, exponent,
statistic and weights, whatever the layer returned before, the module that takes its place returns - on every input that has at least as many
dimensions as the calibration inputs, when convolutions were calibrated on batches.  The full statement has no condition on the calibration
inputs; it is false (`C75_unbatched_convolution`, `C75_extra_dimension`). -/
theorem C75_layer_unchanged_partial (stat : StatKind) (α : ℝ) (T : TensorLayer ℝ) (hn : T.layer.kind ≠ .norm)
    (batches : List (NdTensor ℝ)) (E : Equalized ℝ) (hE : layerwise stat α T batches = some E) (x y : NdTensor ℝ)
    (hb : ∀ b ∈ batches, b.shape.length ≤ x.shape.length ∧ ∀ d, T.type = .conv d → b.shape.length = d + 2)
    (hp : ValidPositions T x.shape) (hy : T.forward x = some y) : E.forward x = some y := by
  obtain ⟨act, hact, hE⟩ := Option.bind_eq_some_iff.mp hE
  obtain ⟨b, hbm⟩ := List.exists_mem_of_ne_nil _ (calibrate_shape hact).1
  obtain ⟨nb, hbs⟩ := (calibrate_shape hact).2 b hbm
  obtain ⟨hlen, hconv⟩ := hb b hbm
  rw [hbs, List.length_cons] at hlen hconv
  unfold equalizeLayer at hE
  by_cases hax : (inputAxisIsOutput T.layer.kind).isNone = true
  · rw [if_pos hax] at hE
    simp only [Option.some.injEq] at hE
    subst hE
    exact hy
  rw [if_neg hax] at hE
  have hax' : inputAxisIsOutput T.layer.kind ≠ none := by simpa using hax
  obtain ⟨k, hk⟩ : ∃ k, dimOf act.shape.length (actAxis T.type) = some k := by
    cases h : dimOf act.shape.length (actAxis T.type) with
    | none => rw [h] at hE; simp at hE
    | some k => exact ⟨k, rfl⟩
  rw [hk] at hE
  simp only at hE
  by_cases hC : act.shape.getD k 0 ≠ maxShapeSinks (layerRegion T.layer)
  · rw [if_pos hC] at hE
    simp only [Option.some.injEq] at hE
    subst hE
    exact hy
  rw [if_neg hC] at hE
  simp only [Option.some.injEq] at hE
  push Not at hC
  rw [maxShapeSinks_layer, sinkChannels_eq _ hax'] at hC
  have hy' := hy
  unfold TensorLayer.forward at hy
  by_cases hok : T.type.rankOK x.shape.length ∧ x.shape.getD (T.type.channelDim x.shape.length) 0 = inputChannels T.layer
  swap
  · rw [if_neg hok] at hy; simp at hy
  rw [if_pos hok] at hy
  simp only [Option.some.injEq] at hy
  have hkl : k < act.shape.length := dimOf_lt hk
  -- the dimension that is multiplied is the dimension of the channels
  have hdim : x.shape.length - (act.shape.length + 1) + (k + 1) = T.type.channelDim x.shape.length ∧
      T.type.channelDim x.shape.length < x.shape.length := by
    cases ht : T.type with
    | linear =>
      rw [ht] at hk
      rw [dimOf_last _ (by omega)] at hk
      simp only [Option.some.injEq] at hk
      simp only [LayerType.channelDim]
      omega
    | conv d =>
      rw [ht] at hk
      rw [dimOf_first _ (by omega)] at hk
      simp only [Option.some.injEq] at hk
      have h1 := hconv d ht
      have h2 := hok.1
      rw [ht] at h2
      simp only [LayerType.rankOK] at h2
      simp only [LayerType.channelDim]
      omega
  obtain ⟨hdim, hdlt⟩ := hdim
  obtain ⟨f, hf⟩ : ∃ f, f = actFactor stat α T.layer act k := ⟨_, rfl⟩
  rw [← hf] at hE
  have hfpos : ∀ c, f c ≠ 0 := fun c => by rw [hf]; exact (factor_pos _ _ _).ne'
  obtain ⟨z, hz, hzs, hzd⟩ := mul_forward (fun c => (f c)⁻¹) act.shape k hkl x hlen (by rw [hdim, hok.2, hC])
  subst hE
  simp only [Equalized.forward]
  rw [hz, Option.bind_some]
  unfold TensorLayer.forward
  have hch : inputChannels (scaleIn f ⟨0, sinkChannels T.layer, 0⟩ T.layer) = inputChannels T.layer := rfl
  rw [if_pos (by rw [hzs]; simp only [hch]; exact hok), ← hy]
  unfold TensorLayer.apply
  simp only [hzs]
  congr 2
  funext idx
  refine eval_scaleIn T.layer hax' hn f hfpos _ _ (fun c hc p => ?_) _ _
  have hin := inBounds_insertIdx x.shape (T.position x.shape p) (T.type.channelDim x.shape.length) c hdlt
    (by rw [hok.2]; exact hc) (hp p)
  have hle : T.type.channelDim x.shape.length ≤ (T.position x.shape p).length := by
    rw [(hp p).length_eq, List.length_eraseIdx_of_lt hdlt]
    omega
  rw [hzd _ hin, hdim, getD_insertIdx _ _ _ hle]


/-- A linear layer with two inputs and weights one. -/
noncomputable def pairLayer : TensorLayer ℝ where
  type := .linear
  layer := { kind := .dense, outCh := 1, inCh := 2, taps := 1, w := fun _ _ _ => 1, b := none, tap := fun p _ => some p, normalise := id }
  position := fun shape _ => List.replicate (shape.length - 1) 0
  number := fun _ _ => 0
  outShape := fun shape => shape.set (shape.length - 1) 1

theorem pairLayer_sinks (c : ℕ) (hc : c < 2) :
    sinksRange ⟨false, .maxabs, .vaiq⟩ (fun _ => pairLayer.layer) (layerRegion pairLayer.layer) c = 1 := by
  rw [sinksRange_layer _ _ _ hc]
  simp [pairLayer, sinkRow, inputAxisIsOutput, StatKind.fn, channelMaxabs, absMax, torchMax]

theorem pair_factor (α : ℝ) (L : Layer ℝ) (hL : L = pairLayer.layer) (act : NdTensor ℝ) (hs : act.shape = [2]) (c : ℕ) (hc : c < 2)
    (v : ℝ) (hp : 0 ≤ v) (hv : act.data [c] = v) : actFactor .maxabs α L act 0 c = factor α v 1 := by
  unfold actFactor
  rw [hL, pairLayer_sinks c hc]
  congr 1
  unfold actRow
  rw [hs]
  simp [indices, StatKind.fn, channelMaxabs, absMax, torchMax, hv, abs_of_nonneg hp]

/-- The layer calibrated with the values 4 and 1: with exponent one half its weights, both one, become 2 and 1. -/
example : ∃ E, layerwise .maxabs (1 / 2) pairLayer [⟨[1, 2], fun idx => if idx.getD 1 0 = 0 then 4 else 1⟩] = some E ∧
    E.layer.layer.w 0 0 0 = 2 ∧ E.layer.layer.w 0 1 0 = 1 ∧ ValidPositions pairLayer [1, 2] ∧
    (∃ m, E.scale = some m) ∧ (pairLayer.forward ⟨[1, 2], fun _ => 3⟩).isSome = true := by
  have he : (epsilon : ℝ) = 1 / 1000000000 := rfl
  refine ⟨_, rfl, ?_, ?_, ?_, ⟨_, rfl⟩, rfl⟩
  · show (1 : ℝ) * actFactor .maxabs (1 / 2) pairLayer.layer ⟨[2], fun idx => channelMaxabs [if (0 :: idx).getD 1 0 = 0 then 4 else 1]⟩ 0 0 = 2
    have hv : channelMaxabs [(if ([0, 0] : List ℕ).getD 1 0 = 0 then 4 else 1 : ℝ)] = 4 := by
      simp [channelMaxabs, absMax, torchMax]
    rw [pair_factor _ _ rfl _ rfl 0 (by decide) 4 (by norm_num) hv,
      factor_half (by rw [he]; norm_num) (by rw [he]; norm_num), Real.sqrt_one,
        show (4 : ℝ) = 2 ^ 2 by norm_num, Real.sqrt_sq (by norm_num)]
    norm_num
  · show (1 : ℝ) * actFactor .maxabs (1 / 2) pairLayer.layer ⟨[2], fun idx => channelMaxabs [if (0 :: idx).getD 1 0 = 0 then 4 else 1]⟩ 0 1 = 1
    have hv : channelMaxabs [(if ([0, 1] : List ℕ).getD 1 0 = 0 then 4 else 1 : ℝ)] = 1 := by
      simp [channelMaxabs, absMax, torchMax]
    rw [pair_factor _ _ rfl _ rfl 1 (by decide) 1 (by norm_num) hv,
      factor_half (by rw [he]; norm_num) (by rw [he]; norm_num), Real.sqrt_one]
    norm_num
  · intro p
    exact .cons (by decide) .nil

/-- A convolution with two channels, a kernel of one position and weights one. -/
noncomputable def pointConv : TensorLayer ℝ where
  type := .conv 1
  layer := { kind := .dense, outCh := 1, inCh := 2, taps := 1, w := fun _ _ _ => 1, b := none, tap := fun p _ => some p, normalise := id }
  position := fun _ p => [p]
  number := fun _ idx => idx.getD 0 0
  outShape := fun shape => shape.set (shape.length - 2) 1

/-- Without the condition on convolutions the statement is false.  A convolution calibrated on an unbatched signal of as many positions as
channels has its positions taken for channels, and computes something else afterwards. -/
theorem C75_unbatched_convolution :
    ∃ (T : TensorLayer ℝ) (x y : NdTensor ℝ) (E : Equalized ℝ), T.type = .conv 1 ∧ layerwise .maxabs 1 T [x] = some E ∧
      T.forward x = some y ∧ y.data [0, 0] = 2 ∧ ∃ z, E.forward x = some z ∧ z.shape = y.shape ∧ z.data [0, 0] = 3 := by
  have he : (epsilon : ℝ) = 1 / 1000000000 := rfl
  have h0 : actFactor .maxabs 1 pointConv.layer ⟨[2], fun idx =>
      channelMaxabs ((List.range 2).map fun b => if (b :: idx).getD 1 0 = 0 then 1 else 2)⟩ 0 0 = 1 := by
    have hv : channelMaxabs ((List.range 2).map fun b => (if ([b, 0] : List ℕ).getD 1 0 = 0 then 1 else 2 : ℝ)) = 1 := by
      simp [channelMaxabs, absMax, torchMax, List.range_succ]
    rw [pair_factor 1 pointConv.layer rfl _ rfl 0 (by decide) 1 (by norm_num) hv, factor_one (by rw [he]; norm_num) (by rw [he]; norm_num)]
  have h1 : actFactor .maxabs 1 pointConv.layer ⟨[2], fun idx =>
      channelMaxabs ((List.range 2).map fun b => if (b :: idx).getD 1 0 = 0 then 1 else 2)⟩ 0 1 = 2 := by
    have hv : channelMaxabs ((List.range 2).map fun b => (if ([b, 1] : List ℕ).getD 1 0 = 0 then 1 else 2 : ℝ)) = 2 := by
      simp [channelMaxabs, absMax, torchMax, List.range_succ]
    rw [pair_factor 1 pointConv.layer rfl _ rfl 1 (by decide) 2 (by norm_num) hv, factor_one (by rw [he]; norm_num) (by rw [he]; norm_num)]
  refine ⟨pointConv, ⟨[2, 2], fun idx => if idx.getD 1 0 = 0 then 1 else 2⟩, _, _, rfl, rfl, rfl, ?_, _, rfl, rfl, ?_⟩
  · show (∑ i ∈ Finset.range 2, ∑ t ∈ Finset.range 1, (1 : ℝ) * 1) + 0 = 2
    norm_num
  · show (∑ i ∈ Finset.range 2, ∑ t ∈ Finset.range 1, (1 * if 0 ≤ i ∧ i < 2 then actFactor .maxabs 1 pointConv.layer ⟨[2], fun idx =>
      channelMaxabs ((List.range 2).map fun b => if (b :: idx).getD 1 0 = 0 then 1 else 2)⟩ 0 i else 1) * (1 * (actFactor .maxabs 1 pointConv.layer ⟨[2], fun idx =>
      channelMaxabs ((List.range 2).map fun b => if (b :: idx).getD 1 0 = 0 then 1 else 2)⟩ 0 0)⁻¹) : ℝ) + 0 = 3
    rw [Finset.sum_range_succ, Finset.sum_range_succ]
    simp only [Finset.range_zero, Finset.sum_empty, Finset.sum_range_one]
    rw [h0, if_pos (by decide), if_pos (by decide), h1]
    norm_num

/-- Without the condition on ranks the statement is false.  A linear layer calibrated on inputs with three dimensions returns three dimensions
when it is then given two. -/
theorem C75_extra_dimension :
    ∃ (T : TensorLayer ℝ) (b x y : NdTensor ℝ) (E : Equalized ℝ), T.type = .linear ∧ layerwise .maxabs 1 T [b] = some E ∧
      T.forward x = some y ∧ y.shape = [1, 1] ∧ ∃ z, E.forward x = some z ∧ z.shape = [1, 1, 1] := by
  refine ⟨pairLayer, ⟨[1, 1, 2], fun _ => 1⟩, ⟨[1, 2], fun _ => 1⟩, _, _, rfl, rfl, rfl, rfl, _, rfl, rfl⟩

/-- A layer the calibration never calls makes equalisation raise. -/
theorem C75_unused_layer (stat : StatKind) (α : ℝ) (T : TensorLayer ℝ) : layerwise stat α T [] = none := rfl

/-- The `with` statement of Python, as documented: the exception that leaves it, given the one that left its body and what `__exit__` does.  A
true return value suppresses the exception of the body; an exception of `__exit__` replaces it. -/
def withStatement {ε : Type*} (body : Option ε) (exit : Except ε Bool) : Option ε :=
  match exit with
  | .error e => some e
  | .ok true => none
  | .ok false => body

/-- An error raised while calibrating, for instance because a batch has the wrong shape, is silently dropped: whatever is raised in the body of
`with activation_equalization_mode(...)`, nothing leaves the statement when equalisation itself succeeds. -/
theorem C75_error_swallowed {ε : Type*} (error : ε) : withStatement (some error) (modeExit none) = none := rfl

/-! ## C76 -/

/-- With exponent one half and the largest absolute value as statistic, equalisation balances activations and weights: for every channel, the
largest absolute value that reaches the layer over all the calibration inputs equals the largest absolute weight that multiplies it.  For every
layer with dense weights, any number of calibration inputs it accepts, and every channel in which neither the activations nor the
weights are degenerate (all below the threshold of the code). -/
theorem C76_balanced (T : TensorLayer ℝ) (hk : T.layer.kind = .dense) (batches : List (NdTensor ℝ)) (E : Equalized ℝ)
    (hE : layerwise .maxabs (1 / 2) T batches = some E)
    (hb : ∀ b ∈ batches, (T.forward b).isSome = true ∧ 2 ≤ b.shape.length ∧ ∀ d, T.type = .conv d → b.shape.length = d + 2)
    (c : ℕ) (b₀ : NdTensor ℝ) (hb₀ : b₀ ∈ batches) (i₀ : List ℕ) (hi₀ : InBounds b₀.shape i₀)
    (hc₀ : i₀.getD (T.type.channelDim b₀.shape.length) 0 = c) (hact : 1 / 1000000000 < |b₀.data i₀|)
    (o₀ t₀ : ℕ) (ho₀ : o₀ < T.layer.outCh) (ht₀ : t₀ < T.layer.taps) (hw : 1 / 1000000000 < |T.layer.w o₀ c t₀|) :
    ∃ (m : ScaleModule ℝ) (R : ℝ), E.scale = some m ∧
      (∀ b ∈ batches, ∃ z, m.forward b = some z ∧ z.shape = b.shape ∧
        ∀ i, InBounds b.shape i → i.getD (T.type.channelDim b.shape.length) 0 = c → |z.data i| ≤ R) ∧
      (∃ b ∈ batches, ∃ z, m.forward b = some z ∧
        ∃ i, InBounds b.shape i ∧ i.getD (T.type.channelDim b.shape.length) 0 = c ∧ |z.data i| = R) ∧
      (∀ o t, o < T.layer.outCh → t < T.layer.taps → |E.layer.layer.w o c t| ≤ R) ∧
      (∃ o t, o < T.layer.outCh ∧ t < T.layer.taps ∧ |E.layer.layer.w o c t| = R) := by
  have he : (epsilon : ℝ) = 1 / 1000000000 := rfl
  obtain ⟨act, hact', hE⟩ := Option.bind_eq_some_iff.mp hE
  have hs := (calibrate_shape hact').2
  -- the axis
  obtain ⟨n₀, hn₀⟩ := hs b₀ hb₀
  have hlen : 0 < act.shape.length := by
    have := (hb b₀ hb₀).2.1
    rw [hn₀, List.length_cons] at this
    omega
  obtain ⟨k, hk1, hkd⟩ : ∃ k, dimOf act.shape.length (actAxis T.type) = some k ∧
      k < act.shape.length ∧ T.type.channelDim (act.shape.length + 1) = k + 1 := by
    cases ht : T.type with
    | linear => exact ⟨_, dimOf_last _ hlen, by omega, by simp only [LayerType.channelDim]; omega⟩
    | conv d =>
      have := (hb b₀ hb₀).2.2 d ht
      rw [hn₀, List.length_cons] at this
      exact ⟨0, dimOf_first _ hlen, hlen, by simp only [LayerType.channelDim]; omega⟩
  obtain ⟨hkl, hkd⟩ := hkd
  have hchan : ∀ b ∈ batches, T.type.channelDim b.shape.length = k + 1 := by
    intro b hbm
    obtain ⟨n, hn⟩ := hs b hbm
    rw [hn, List.length_cons, hkd]
  have hax : inputAxisIsOutput T.layer.kind ≠ none := by rw [hk]; simp [inputAxisIsOutput]
  have hC : act.shape.getD k 0 = inputChannels T.layer := by
    have h1 := (hb b₀ hb₀).1
    unfold TensorLayer.forward at h1
    by_cases hok : T.type.rankOK b₀.shape.length ∧ b₀.shape.getD (T.type.channelDim b₀.shape.length) 0 = inputChannels T.layer
    · have h2 := hok.2
      rw [hchan b₀ hb₀, hn₀] at h2
      simpa using h2
    · rw [if_neg hok] at h1
      simp at h1
  have hcC : c < act.shape.getD k 0 := by
    rw [hchan b₀ hb₀] at hc₀
    rw [hn₀] at hi₀
    cases hi₀ with
    | cons hj hi =>
      rename_i j i
      have hlt : k < i.length := by rw [hi.length_eq]; exact hkl
      rw [← hc₀, List.getD_cons_succ, List.getD_eq_getElem _ _ hlt, List.getD_eq_getElem _ _ hkl]
      exact List.forall₂_iff_get.1 hi |>.2 k hlt hkl
  -- the equalised layer
  unfold equalizeLayer at hE
  rw [if_neg (by simpa using hax), hk1] at hE
  simp only at hE
  rw [if_neg (by rw [maxShapeSinks_layer, sinkChannels_eq _ hax, hC]; simp)] at hE
  simp only [Option.some.injEq] at hE
  subst hE
  dsimp only
  obtain ⟨hA1, hA2⟩ := channel_stat hact' hkl hcC
  have hcs : c < sinkChannels T.layer := by rw [sinkChannels_eq _ hax, ← hC]; exact hcC
  have hfc : actFactor .maxabs (1 / 2) T.layer act k c
      = factor (1 / 2) (channelMaxabs (actRow act k c)) (channelMaxabs (sinkRow T.layer c)) := by
    unfold actFactor
    rw [sinksRange_layer _ _ _ hcs]
    rfl
  obtain ⟨A, hA⟩ : ∃ A, A = channelMaxabs (actRow act k c) := ⟨_, rfl⟩
  obtain ⟨W, hW⟩ : ∃ W, W = channelMaxabs (sinkRow T.layer c) := ⟨_, rfl⟩
  obtain ⟨f, hf⟩ : ∃ f, f = actFactor .maxabs (1 / 2) T.layer act k := ⟨_, rfl⟩
  rw [← hf, ← hA, ← hW] at hfc
  rw [← hA] at hA1 hA2
  rw [← hf]
  have memW : ∀ v, v ∈ sinkRow T.layer c ↔ ∃ o t, o < T.layer.outCh ∧ t < T.layer.taps ∧ T.layer.w o c t = v := by
    intro v
    unfold sinkRow
    rw [hk]
    simp only [inputAxisIsOutput, List.mem_flatMap, List.mem_map, List.mem_range]
    constructor
    · rintro ⟨o, ho, t, ht, rfl⟩
      exact ⟨o, t, ho, ht, rfl⟩
    · rintro ⟨o, t, ho, ht, rfl⟩
      exact ⟨o, ho, t, ht, rfl⟩
  have hw0 : T.layer.w o₀ c t₀ ∈ sinkRow T.layer c := (memW _).2 ⟨o₀, t₀, ho₀, ht₀, rfl⟩
  obtain ⟨hW2, hW1⟩ := channelMaxabs_spec _ (List.ne_nil_of_mem hw0)
  rw [← hW] at hW1 hW2
  have hApos : epsilon < A := by
    rw [he]
    exact lt_of_lt_of_le hact (hA1 b₀ hb₀ i₀ hi₀ (by rw [← hchan b₀ hb₀]; exact hc₀))
  have hWpos : epsilon < W := by
    rw [he]
    exact lt_of_lt_of_le hw (hW1 _ hw0)
  have he0 : (0 : ℝ) < epsilon := by rw [he]; norm_num
  rw [factor_half hApos hWpos] at hfc
  have hsA := Real.sqrt_pos.2 (he0.trans hApos)
  have hsW := Real.sqrt_pos.2 (he0.trans hWpos)
  have hAA := Real.mul_self_sqrt (he0.trans hApos).le
  have hWW := Real.mul_self_sqrt (he0.trans hWpos).le
  have hfpos : 0 < f c := by rw [hfc]; exact div_pos hsA hsW
  have hR1 : A * (f c)⁻¹ = Real.sqrt A * Real.sqrt W := by
    rw [hfc, inv_div, ← mul_div_assoc, div_eq_iff hsA.ne']
    nlinarith
  have hR2 : W * f c = Real.sqrt A * Real.sqrt W := by
    rw [hfc, ← mul_div_assoc, div_eq_iff hsW.ne']
    nlinarith
  have hmul : ∀ b ∈ batches, ∃ z, (createMul (fun c => (f c)⁻¹) act.shape k).forward b = some z ∧ z.shape = b.shape ∧
      ∀ i, InBounds b.shape i → i.getD (k + 1) 0 = c → z.data i = b.data i * (f c)⁻¹ := by
    intro b hbm
    obtain ⟨n, hn⟩ := hs b hbm
    have hl : b.shape.length - (act.shape.length + 1) + (k + 1) = k + 1 := by rw [hn, List.length_cons]; omega
    obtain ⟨z, hz, hzs, hzd⟩ := mul_forward (fun c => (f c)⁻¹) act.shape k hkl b (by rw [hn, List.length_cons])
      (by rw [hl, hn, List.getD_cons_succ])
    rw [hl] at hzd
    exact ⟨z, hz, hzs, fun i hi hic => by rw [hzd i hi, hic]⟩
  have hwt : ∀ o t, (scaleIn f ⟨0, sinkChannels T.layer, 0⟩ T.layer).w o c t = T.layer.w o c t * f c := by
    intro o t
    show T.layer.w o c t * partialScaling f _ _ = _
    rw [hk]
    simp only [inputAxisIsOutput, Option.some.injEq, Bool.false_eq_true, if_false]
    unfold partialScaling
    rw [if_pos ⟨Nat.zero_le _, hcs⟩]
    simp
  refine ⟨_, Real.sqrt A * Real.sqrt W, rfl, ?_, ?_, ?_, ?_⟩
  · intro b hbm
    obtain ⟨z, hz, hzs, hzd⟩ := hmul b hbm
    refine ⟨z, hz, hzs, fun i hi hic => ?_⟩
    rw [hchan b hbm] at hic
    rw [hzd i hi hic, abs_mul, abs_of_pos (inv_pos.2 hfpos), ← hR1]
    exact mul_le_mul_of_nonneg_right (hA1 b hbm i hi hic) (inv_pos.2 hfpos).le
  · rcases hA2 with h0 | ⟨b, hbm, i, hi, hic, hv⟩
    · rw [h0] at hApos
      exact absurd hApos (not_lt.2 he0.le)
    · obtain ⟨z, hz, hzs, hzd⟩ := hmul b hbm
      refine ⟨b, hbm, z, hz, i, hi, by rw [hchan b hbm]; exact hic, ?_⟩
      rw [hzd i hi hic, abs_mul, abs_of_pos (inv_pos.2 hfpos), ← hR1, hv]
  · intro o t ho ht
    rw [hwt, abs_mul, abs_of_pos hfpos, ← hR2]
    exact mul_le_mul_of_nonneg_right (hW1 _ ((memW _).2 ⟨o, t, ho, ht, rfl⟩)) hfpos.le
  · obtain ⟨v, hv, hve⟩ := hW2
    obtain ⟨o, t, ho, ht, rfl⟩ := (memW _).1 hv
    refine ⟨o, t, ho, ht, ?_⟩
    rw [hwt, abs_mul, abs_of_pos hfpos, ← hR2, hve]

/-- The layer above: its two channels are not degenerate. -/
example : ∃ E, layerwise .maxabs (1 / 2) pairLayer [⟨[1, 2], fun idx => if idx.getD 1 0 = 0 then 4 else 1⟩] = some E ∧
    (pairLayer.forward ⟨[1, 2], fun idx => if idx.getD 1 0 = 0 then 4 else 1⟩).isSome = true ∧ InBounds [1, 2] [0, 0] ∧
    ([0, 0] : List ℕ).getD (pairLayer.type.channelDim 2) 0 = 0 ∧ (1 / 1000000000 : ℝ) < |pairLayer.layer.w 0 0 0| := by
  refine ⟨_, rfl, rfl, by decide, rfl, ?_⟩
  show (1 / 1000000000 : ℝ) < |1|
  norm_num

end Brevitas.Props
