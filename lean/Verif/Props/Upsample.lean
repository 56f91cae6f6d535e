import Verif.Model.Upsample
import Verif.Props.Combine

/-!
# C105: upsampling layers
-/

set_option linter.unusedSectionVars false

namespace Brevitas.Props

open Brevitas NdTensor WbLayer Interp
open Brevitas.QuantConv hiding taps

variable {K : Type*} [Field K] [LinearOrder K] [IsStrictOrderedRing K] [FloorRing K]

/-! ### The weights of nearest and linear interpolation -/

theorem clampIndex_lt {n : ℕ} (h : 0 < n) (i : ℤ) : clampIndex n i < n := by
  unfold clampIndex; omega

/-- Nearest and linear interpolation average: positions in bounds, weights that are not negative and add up to one. -/
theorem taps_average (mode : Mode) (hm : mode ≠ .bicubic) (ratio : K) (n d : ℕ) (hn : 0 < n) :
    (∀ p ∈ taps mode ratio n d, p.1 < n ∧ 0 ≤ p.2) ∧ ((taps mode ratio n d).map Prod.snd).sum = 1 := by
  cases mode with
  | bicubic => exact absurd rfl hm
  | nearest =>
    refine ⟨?_, by simp [taps]⟩
    intro p hp
    simp only [taps, List.mem_singleton] at hp
    subst hp
    exact ⟨clampIndex_lt hn _, zero_le_one⟩
  | linear a =>
    simp only [taps]
    generalize (if a = true then (d : K) * ratio else max (((d : K) + 1 / 2) * ratio - 1 / 2) 0) = src
    refine ⟨?_, by simp⟩
    intro p hp
    simp only [List.mem_cons, List.not_mem_nil, or_false] at hp
    rcases hp with rfl | rfl
    · exact ⟨clampIndex_lt hn _, sub_nonneg.mpr (min_le_right _ _)⟩
    · exact ⟨by show min _ _ < n; omega, le_min (le_max_right _ _) zero_le_one⟩

theorem sum_product {α β γ : Type*} (l : List (α × K)) (m : List (β × K)) (f : α → β → γ) :
    ((l.flatMap fun p => m.map fun q => (f p.1 q.1, p.2 * q.2)).map Prod.snd).sum = (l.map Prod.snd).sum * (m.map Prod.snd).sum := by
  induction l with
  | nil => simp
  | cons p l ih =>
    simp only [List.flatMap_cons, List.map_append, List.sum_append, ih, List.map_cons, List.sum_cons, add_mul, List.map_map]
    congr 1
    clear ih
    induction m with
    | nil => simp
    | cons q m ihm => simp only [List.map_cons, List.sum_cons, Function.comp, mul_add] at ihm ⊢; rw [ihm]

theorem tapsNd_average (mode : Mode) (hm : mode ≠ .bicubic) : ∀ (sizes : List ℕ) (zs : List (Resize K)) (ds : List ℕ), 0 ∉ sizes → zs.length = sizes.length → ds.length = sizes.length →
    (∀ p ∈ tapsNd mode sizes zs ds, InBounds sizes p.1 ∧ 0 ≤ p.2) ∧ ((tapsNd mode sizes zs ds).map Prod.snd).sum = 1
  | [], _, _, _, _, _ => by
    refine ⟨?_, by simp [tapsNd]⟩
    intro p hp
    simp only [tapsNd, List.mem_singleton] at hp
    subst hp
    exact ⟨List.Forall₂.nil, zero_le_one⟩
  | n :: sizes, z :: zs, d :: ds, h0, h1, h2 => by
    obtain ⟨a1, a2⟩ := taps_average mode hm (z.ratio mode n) n d (Nat.pos_of_ne_zero fun h => h0 (by simp [h]))
    obtain ⟨b1, b2⟩ := tapsNd_average mode hm sizes zs ds (fun h => h0 (by simp [h])) (by simpa using h1) (by simpa using h2)
    refine ⟨?_, ?_⟩
    · intro p hp
      simp only [tapsNd, List.mem_flatMap, List.mem_map] at hp
      obtain ⟨u, hu, v, hv, rfl⟩ := hp
      exact ⟨List.Forall₂.cons (a1 u hu).1 (b1 v hv).1, mul_nonneg (a1 u hu).2 (b1 v hv).2⟩
    · rw [tapsNd, sum_product _ _ fun a b => a :: b, a2, b2, one_mul]
  | _ :: _, [], _, _, h1, _ => by simp at h1
  | _ :: _, _ :: _, [], _, _, h2 => by simp at h2

theorem average_bounds {α : Type*} (l : List (α × K)) (f : α → K) (lo hi : K) (hw : ∀ p ∈ l, 0 ≤ p.2) (hf : ∀ p ∈ l, lo ≤ f p.1 ∧ f p.1 ≤ hi) :
    lo * (l.map Prod.snd).sum ≤ (l.map fun p => p.2 * f p.1).sum ∧ (l.map fun p => p.2 * f p.1).sum ≤ hi * (l.map Prod.snd).sum := by
  induction l with
  | nil => simp
  | cons p l ih =>
    obtain ⟨i1, i2⟩ := ih (fun q hq => hw q (by simp [hq])) (fun q hq => hf q (by simp [hq]))
    have h0 := hw p (by simp)
    obtain ⟨h1, h2⟩ := hf p (by simp)
    simp only [List.map_cons, List.sum_cons, mul_add]
    constructor
    · have := mul_le_mul_of_nonneg_left h1 h0; linarith [mul_comm lo p.2]
    · have := mul_le_mul_of_nonneg_left h2 h0; linarith [mul_comm hi p.2]

theorem exists_extremes {α : Type*} (l : List α) (h : l ≠ []) (f : α → ℤ) : (∃ a ∈ l, ∀ b ∈ l, f a ≤ f b) ∧ ∃ a ∈ l, ∀ b ∈ l, f b ≤ f a := by
  induction l with
  | nil => exact absurd rfl h
  | cons x l ih =>
    by_cases hl : l = []
    · subst hl; exact ⟨⟨x, by simp, by simp⟩, ⟨x, by simp, by simp⟩⟩
    · obtain ⟨⟨a, ha, h1⟩, b, hb, h2⟩ := ih hl
      constructor
      · rcases le_total (f x) (f a) with hx | hx
        · exact ⟨x, by simp, fun c hc => by rcases List.mem_cons.mp hc with rfl | hc; exacts [le_rfl, hx.trans (h1 c hc)]⟩
        · exact ⟨a, by simp [ha], fun c hc => by rcases List.mem_cons.mp hc with rfl | hc; exacts [hx, h1 c hc]⟩
      · rcases le_total (f b) (f x) with hx | hx
        · exact ⟨x, by simp, fun c hc => by rcases List.mem_cons.mp hc with rfl | hc; exacts [le_rfl, (h2 c hc).trans hx]⟩
        · exact ⟨b, by simp [hb], fun c hc => by rcases List.mem_cons.mp hc with rfl | hc; exacts [hx, h2 c hc]⟩

/-- The result of an interpolation: its shape, and the averages it is made of. -/
theorem interpolate_average {mode : Mode} {zs : List (Resize K)} {x y : NdTensor K} (hm : mode ≠ .bicubic) (h : interpolate mode zs x = some y) :
    y.shape.length = x.shape.length ∧ y.shape.take 2 = x.shape.take 2 ∧ ∀ idx, InBounds y.shape idx →
      ∃ T : List (List ℕ × K), T ≠ [] ∧ (∀ p ∈ T, InBounds x.shape p.1 ∧ p.1.length = idx.length ∧ p.1.take 2 = idx.take 2 ∧ 0 ≤ p.2) ∧ (T.map Prod.snd).sum = 1 ∧
        y.data idx = (T.map fun p => p.2 * x.data p.1).sum := by
  obtain ⟨xs, xd⟩ := x
  rcases xs with _ | ⟨n, _ | ⟨c, sizes⟩⟩
  · simp [interpolate] at h
  · simp [interpolate] at h
  · simp only [interpolate] at h
    split_ifs at h with hc
    obtain ⟨hc1, hc2, hc3⟩ := hc
    obtain rfl := Option.some.inj h
    refine ⟨by simp [hc2], by simp, ?_⟩
    intro idx hi
    simp only at hi
    rcases idx with _ | ⟨a, _ | ⟨b, ds⟩⟩
    · cases hi
    · cases (List.forall₂_cons.mp hi).2
    obtain ⟨ha, hi'⟩ := List.forall₂_cons.mp hi
    obtain ⟨hb, hds⟩ := List.forall₂_cons.mp hi'
    obtain ⟨t1, t2⟩ := tapsNd_average mode hm sizes zs ds hc3 hc2.symm (by rw [hds.length_eq]; simp [hc2])
    refine ⟨(tapsNd mode sizes zs ds).map fun p => (a :: b :: p.1, p.2), ?_, ?_, ?_, ?_⟩
    · intro he
      rw [List.map_eq_nil_iff] at he
      rw [he] at t2
      simp at t2
    · intro p hp
      obtain ⟨u, hu, rfl⟩ := List.mem_map.mp hp
      obtain ⟨h1, h2⟩ := t1 u hu
      refine ⟨List.Forall₂.cons ha (List.Forall₂.cons hb h1), ?_, by simp, h2⟩
      have := h1.length_eq
      have := hds.length_eq
      simp [hc2] at *
      omega
    · rw [List.map_map]; exact t2
    · rw [List.map_map]; rfl

/-! ### C105 -/

/-- The zero points are integers. -/
def IntegerZeroPoints (q : ShapedQT K) : Prop := ∀ idx, InBounds q.zeroPoint.shape idx → ∃ z : ℤ, q.zeroPoint.data idx = z

/-- Scales and zero points do not vary within a channel. -/
def ChannelMeta (q : ShapedQT K) : Prop := ConstantFrom 2 q.value.shape.length q.scale.shape ∧ ConstantFrom 2 q.value.shape.length q.zeroPoint.shape

theorem roundToScale_eq {y s : NdTensor K} (h : Broadcasts s.shape y.shape) : ∃ v, Upsample.roundToScale y s = some v ∧ v.shape = y.shape ∧
    ∀ idx, InBounds y.shape idx → v.data idx = (torchRound (y.data idx / s.data (bcIndex s.shape idx)) : ℤ) * s.data (bcIndex s.shape idx) := by
  unfold Upsample.roundToScale bcOp
  simp only [bcShape_of_broadcasts h, Option.map_some, Option.bind_some, NdTensor.map]
  refine ⟨_, rfl, rfl, ?_⟩
  intro idx hi
  simp only [bcIndex_inBounds hi]

/-- What the two interpolating layers compute. -/
theorem rounded_codes (q : ShapedQT K) (n : List ℕ → ℤ) (hq : HoldsCodes q n) (hmeta : ChannelMeta q) (hz : IntegerZeroPoints q) (mode : Mode) (hm : mode ≠ .bicubic)
    (zs : List (Resize K)) (y : NdTensor K) (hy : interpolate mode zs q.value = some y) :
    ∃ (v : NdTensor K) (m : List ℕ → ℤ), Upsample.roundToScale y q.scale = some v ∧ v.shape = y.shape ∧ HoldsCodes { q with value := v } m ∧
      ∀ idx, InBounds y.shape idx → |v.data idx - y.data idx| ≤ q.scale.data (bcIndex q.scale.shape idx) / 2 ∧
        ∃ i j, InBounds q.value.shape i ∧ InBounds q.value.shape j ∧ i.take 2 = idx.take 2 ∧ j.take 2 = idx.take 2 ∧ n i ≤ m idx ∧ m idx ≤ n j := by
  obtain ⟨hl, ht, hav⟩ := interpolate_average hm hy
  have hbs : Broadcasts q.scale.shape y.shape := broadcasts_constantFrom hmeta.1 hq.scale_shape hl ht
  have hbz : Broadcasts q.zeroPoint.shape y.shape := broadcasts_constantFrom hmeta.2 hq.zeroPoint_shape hl ht
  obtain ⟨v, hv, hvs, hvd⟩ := roundToScale_eq hbs
  have key : ∀ idx, InBounds y.shape idx → 0 < q.scale.data (bcIndex q.scale.shape idx) ∧ ∃ k : ℤ,
      v.data idx = ((k : K) - q.zeroPoint.data (bcIndex q.zeroPoint.shape idx)) * q.scale.data (bcIndex q.scale.shape idx) ∧
      |v.data idx - y.data idx| ≤ q.scale.data (bcIndex q.scale.shape idx) / 2 ∧
      ∃ i j, InBounds q.value.shape i ∧ InBounds q.value.shape j ∧ i.take 2 = idx.take 2 ∧ j.take 2 = idx.take 2 ∧ n i ≤ k ∧ k ≤ n j := by
    intro idx hi
    obtain ⟨T, hne, hT, hsum, hdata⟩ := hav idx hi
    have hlen : idx.length = q.value.shape.length := by rw [hi.length_eq, hl]
    set s := q.scale.data (bcIndex q.scale.shape idx) with hs
    set zp := q.zeroPoint.data (bcIndex q.zeroPoint.shape idx) with hzp
    obtain ⟨z, hzz⟩ := hz _ (bcIndex_mem hbz hi)
    rw [← hzp] at hzz
    have hsame : ∀ p ∈ T, q.scale.data (bcIndex q.scale.shape p.1) = s ∧ q.zeroPoint.data (bcIndex q.zeroPoint.shape p.1) = zp := by
      intro p hp
      obtain ⟨h1, h2, h3, -⟩ := hT p hp
      rw [hs, hzp, bcIndex_constantFrom hmeta.1 (h2.trans hlen) hlen h3, bcIndex_constantFrom hmeta.2 (h2.trans hlen) hlen h3]
      exact ⟨rfl, rfl⟩
    have hval : ∀ p ∈ T, q.value.data p.1 = ((n p.1 : K) - zp) * s := by
      intro p hp
      have := (hq.codes p.1 (hT p hp).1).1
      rwa [(hsame p hp).1, (hsame p hp).2] at this
    have hpos : 0 < s := by
      obtain ⟨p, hp⟩ := List.exists_mem_of_ne_nil T hne
      have := hq.scale_pos p.1 (hT p hp).1
      rwa [(hsame p hp).1] at this
    have hys : y.data idx / s = (T.map fun p => p.2 * ((n p.1 : K) - z)).sum := by
      rw [hdata]
      have e : (T.map fun p => p.2 * q.value.data p.1) = T.map fun p => p.2 * ((n p.1 : K) - z) * s := by
        apply List.map_congr_left
        intro p hp
        rw [hval p hp, hzz]; ring
      rw [e, List.sum_map_mul_right, mul_div_cancel_right₀ _ hpos.ne']
    obtain ⟨⟨a, ha, hmin⟩, b, hb, hmax⟩ := exists_extremes T hne fun p => n p.1
    obtain ⟨b1, b2⟩ := average_bounds T (fun i => (n i : K) - z) ((n a.1 : K) - z) ((n b.1 : K) - z) (fun p hp => (hT p hp).2.2.2) fun p hp =>
      ⟨sub_le_sub_right (by exact_mod_cast hmin p hp) _, sub_le_sub_right (by exact_mod_cast hmax p hp) _⟩
    rw [hsum, mul_one, ← hys] at b1 b2
    have c1 : n a.1 - z ≤ torchRound (y.data idx / s) := by
      have := torchRound_mono (K := K) b1
      have e : ((n a.1 : K) - z) = ((n a.1 - z : ℤ) : K) := by push_cast; rfl
      rwa [e, torchRound_faithful.int] at this
    have c2 : torchRound (y.data idx / s) ≤ n b.1 - z := by
      have := torchRound_mono (K := K) b2
      have e : ((n b.1 : K) - z) = ((n b.1 - z : ℤ) : K) := by push_cast; rfl
      rwa [e, torchRound_faithful.int] at this
    refine ⟨hpos, torchRound (y.data idx / s) + z, ?_, ?_, a.1, b.1, (hT a ha).1, (hT b hb).1, (hT a ha).2.2.1, (hT b hb).2.2.1, by omega, by omega⟩
    · rw [hvd idx hi, hzz]; push_cast; ring
    · rw [hvd idx hi]
      have e : (torchRound (y.data idx / s) : K) * s - y.data idx = ((torchRound (y.data idx / s) : K) - y.data idx / s) * s := by field_simp
      rw [e, abs_mul, abs_of_pos hpos]
      calc _ ≤ 1 / 2 * s := mul_le_mul_of_nonneg_right (torchRound_err _) hpos.le
        _ = s / 2 := by ring
  refine ⟨v, fun idx => if h : InBounds y.shape idx then (key idx h).2.choose else 0, hv, hvs, ⟨hvs ▸ hbs, hvs ▸ hbz, ?_, ?_⟩, ?_⟩
  · intro idx hi
    exact (key idx (hvs ▸ hi)).1
  · intro idx hi
    have hi' : InBounds y.shape idx := hvs ▸ hi
    simp only [dif_pos hi']
    obtain ⟨h1, -, i, j, hbi, hbj, -, -, h2, h3⟩ := (key idx hi').2.choose_spec
    have ci := (hq.codes i hbi).2
    have cj := (hq.codes j hbj).2
    exact ⟨h1, ci.1.trans h2, h3.trans cj.2⟩
  · intro idx hi
    simp only [dif_pos hi]
    exact (key idx hi).2.choose_spec.2

/-- C105, linear modes: `QuantUpsample` in a linear mode (with or without aligned corners) and `QuantUpsamplingBilinear2d`, of a quant tensor whose scales do not vary within a channel
and whose zero points are integers, return a quant tensor with the same metadata. Its elements are codes of the same container, between the smallest and the largest code that they
average, and within half a scale of what torch computes for the float tensor. -/
theorem C105_linear_codes (q : ShapedQT K) (n : List ℕ → ℤ) (hq : HoldsCodes q n) (hmeta : ChannelMeta q) (hz : IntegerZeroPoints q) (align : Bool) (zs : List (Resize K))
    (y : NdTensor K) (hy : interpolate (.linear align) zs q.value = some y) :
    ∃ (r : ShapedQT K) (m : List ℕ → ℤ), (⟨.linear align, zs, true⟩ : Upsample.Layer K).forward (.quant q) = .ok (.quant r) ∧
      (align = true → Upsample.bilinear2d zs true (.quant q) = .ok (.quant r)) ∧ SameMeta q r ∧ r.value.shape = y.shape ∧ HoldsCodes r m ∧
      ∀ idx, InBounds y.shape idx → |r.value.data idx - y.data idx| ≤ q.scale.data (bcIndex q.scale.shape idx) / 2 ∧
        ∃ i j, InBounds q.value.shape i ∧ InBounds q.value.shape j ∧ i.take 2 = idx.take 2 ∧ j.take 2 = idx.take 2 ∧ n i ≤ m idx ∧ m idx ≤ n j := by
  obtain ⟨v, m, hv, hvs, hc, hb⟩ := rounded_codes q n hq hmeta hz (.linear align) (by simp) zs y hy
  refine ⟨{ q with value := v }, m, ?_, ?_, ⟨rfl, rfl, rfl, rfl, rfl⟩, hvs, hc, hb⟩
  · simp [Upsample.Layer.forward, hy, hv, torchOp, Except.bind, packOutput, isQuant]
  · rintro rfl
    simp [Upsample.bilinear2d, hy, hv, torchOp, Except.bind, packOutput, isQuant]

/-- C105, nearest: `QuantUpsample` in mode `nearest` and `QuantUpsamplingNearest2d` copy: every element of the result is the element of the input that torch picks, in the same channel,
with the same metadata, and the same code. -/
theorem C105_nearest_copies (q : ShapedQT K) (n : List ℕ → ℤ) (hq : HoldsCodes q n) (hmeta : ChannelMeta q) (zs : List (Resize K)) (y : NdTensor K)
    (hy : interpolate .nearest zs q.value = some y) :
    ∃ (r : ShapedQT K) (src : List ℕ → List ℕ), (⟨.nearest, zs, true⟩ : Upsample.Layer K).forward (.quant q) = .ok (.quant r) ∧ Upsample.nearest2d zs true (.quant q) = .ok (.quant r) ∧
      SameMeta q r ∧ r.value.shape = y.shape ∧ HoldsCodes r (fun idx => n (src idx)) ∧
      ∀ idx, InBounds y.shape idx → InBounds q.value.shape (src idx) ∧ (src idx).take 2 = idx.take 2 ∧ r.value.data idx = q.value.data (src idx) := by
  obtain ⟨hl, ht, -⟩ := interpolate_average (by simp) hy
  have hbs : Broadcasts q.scale.shape y.shape := broadcasts_constantFrom hmeta.1 hq.scale_shape hl ht
  have hbz : Broadcasts q.zeroPoint.shape y.shape := broadcasts_constantFrom hmeta.2 hq.zeroPoint_shape hl ht
  have single : ∀ (sizes : List ℕ) (zs : List (Resize K)) (ds : List ℕ), ∃ p, tapsNd (K := K) .nearest sizes zs ds = [(p, 1)] := by
    intro sizes
    induction sizes with
    | nil => intro zs ds; exact ⟨[], by simp [tapsNd]⟩
    | cons s sizes ih =>
      intro zs ds
      cases zs with
      | nil => exact ⟨[], by simp [tapsNd]⟩
      | cons z zs =>
        cases ds with
        | nil => exact ⟨[], by simp [tapsNd]⟩
        | cons d ds =>
          obtain ⟨p, hp⟩ := ih zs ds
          exact ⟨clampIndex s ⌊(d : K) * z.ratio .nearest s⌋ :: p, by simp [tapsNd, taps, hp]⟩
  have key : ∀ idx, InBounds y.shape idx → ∃ i, InBounds q.value.shape i ∧ i.length = idx.length ∧ i.take 2 = idx.take 2 ∧ y.data idx = q.value.data i := by
    obtain ⟨qv, qs, qz, qb, qsg, qt⟩ := q
    obtain ⟨xs, xd⟩ := qv
    simp only at hy ⊢
    rcases xs with _ | ⟨N, _ | ⟨C, sizes⟩⟩
    · simp [interpolate] at hy
    · simp [interpolate] at hy
    · simp only [interpolate] at hy
      split_ifs at hy with hc
      obtain ⟨hc1, hc2, hc3⟩ := hc
      obtain rfl := Option.some.inj hy
      intro idx hi
      simp only at hi
      rcases idx with _ | ⟨a, _ | ⟨b, ds⟩⟩
      · cases hi
      · cases (List.forall₂_cons.mp hi).2
      obtain ⟨ha, hi'⟩ := List.forall₂_cons.mp hi
      obtain ⟨hb, hds⟩ := List.forall₂_cons.mp hi'
      obtain ⟨p, hp⟩ := single sizes zs ds
      obtain ⟨t1, -⟩ := tapsNd_average (K := K) .nearest (by simp) sizes zs ds hc3 hc2.symm (by rw [hds.length_eq]; simp [hc2])
      rw [hp] at t1
      have h1 := (t1 (p, 1) (by simp)).1
      refine ⟨a :: b :: p, List.Forall₂.cons ha (List.Forall₂.cons hb h1), ?_, by simp, ?_⟩
      · have := h1.length_eq
        have := hds.length_eq
        simp [hc2] at *
        omega
      · show ((tapsNd Mode.nearest sizes zs ds).map fun p => p.2 * xd ([a, b] ++ p.1)).sum = _
        rw [hp]
        simp
  refine ⟨{ q with value := y }, fun idx => if h : InBounds y.shape idx then (key idx h).choose else [], ?_, ?_, ⟨rfl, rfl, rfl, rfl, rfl⟩, rfl, ⟨hbs, hbz, ?_, ?_⟩, ?_⟩
  · simp [Upsample.Layer.forward, hy, torchOp, Except.bind, packOutput, isQuant]
  · simp [Upsample.nearest2d, hy, torchOp, Except.bind, packOutput, isQuant]
  · intro idx hi
    obtain ⟨h1, h2, h3, h4⟩ := (key idx hi).choose_spec
    have hlen : idx.length = q.value.shape.length := by rw [List.Forall₂.length_eq hi, hl]
    have := hq.scale_pos _ h1
    rwa [bcIndex_constantFrom hmeta.1 (h2.trans hlen) hlen h3] at this
  · intro idx hi
    have hi' : InBounds y.shape idx := hi
    simp only [dif_pos hi']
    obtain ⟨h1, h2, h3, h4⟩ := (key idx hi').choose_spec
    have hlen : idx.length = q.value.shape.length := by rw [List.Forall₂.length_eq hi', hl]
    have := hq.codes _ h1
    rw [bcIndex_constantFrom hmeta.1 (h2.trans hlen) hlen h3, bcIndex_constantFrom hmeta.2 (h2.trans hlen) hlen h3, ← h4] at this
    exact this
  · intro idx hi
    simp only [dif_pos hi]
    obtain ⟨h1, h2, h3, h4⟩ := (key idx hi).choose_spec
    exact ⟨h1, h3, h4⟩

theorem tapsNd_factor (k : ℕ) (hk : 0 < k) : ∀ (sizes ds : List ℕ), List.Forall₂ (fun d s => d < s * k) ds sizes →
    tapsNd (K := K) .nearest sizes (List.replicate sizes.length (.factor (k : K))) ds = [(ds.map (· / k), 1)]
  | [], _, h => by cases h; simp [tapsNd]
  | s :: sizes, _, .cons (a := d) hd h => by
    have ih := tapsNd_factor k hk sizes _ h
    have hk' : (0 : K) < k := by exact_mod_cast hk
    have hf : ⌊(d : K) * (1 / (k : K))⌋ = ((d / k : ℕ) : ℤ) := by
      rw [Int.floor_eq_iff]
      have h1 : (d / k) * k ≤ d := Nat.div_mul_le_self d k
      have h2 : d < (d / k + 1) * k := by
        have h3 := Nat.div_add_mod d k
        have h4 := Nat.mod_lt d hk
        rw [add_mul, one_mul, mul_comm]; omega
      constructor
      · rw [mul_one_div, le_div_iff₀ hk']; exact_mod_cast h1
      · rw [mul_one_div, div_lt_iff₀ hk']; exact_mod_cast h2
    have hlt : d / k < s := Nat.div_lt_of_lt_mul (by rw [mul_comm]; exact hd)
    have hci : clampIndex s ⌊(d : K) * (1 / (k : K))⌋ = d / k := by
      rw [hf]; unfold clampIndex; rw [Int.toNat_natCast]; exact min_eq_left (by omega)
    simp only [List.length_cons, List.replicate_succ, tapsNd, ih, taps, Resize.ratio]
    rw [if_neg (by simp), hci]
    simp

/-- C105, whole factors: upsampling by a whole factor `k` in mode `nearest` repeats every element `k` times in every spatial dimension. -/
theorem C105_nearest_repeats (k : ℕ) (hk : 0 < k) (q : ShapedQT K) (N C : ℕ) (sizes : List ℕ) (hs : q.value.shape = N :: C :: sizes) (hne : sizes ≠ []) (h0 : 0 ∉ sizes) :
    ∃ r : ShapedQT K, (⟨.nearest, List.replicate sizes.length (.factor (k : K)), true⟩ : Upsample.Layer K).forward (.quant q) = .ok (.quant r) ∧ SameMeta q r ∧
      r.value.shape = N :: C :: sizes.map (· * k) ∧
      ∀ a b ds, InBounds r.value.shape (a :: b :: ds) → r.value.data (a :: b :: ds) = q.value.data (a :: b :: ds.map (· / k)) := by
  have hout : List.zipWith (fun s (z : Resize K) => z.outSize s) sizes (List.replicate sizes.length (.factor (k : K))) = sizes.map (· * k) := by
    clear hs hne h0
    induction sizes with
    | nil => rfl
    | cons s sizes ih =>
      simp only [List.length_cons, List.replicate_succ, List.zipWith_cons_cons, List.map_cons, Resize.outSize]
      congr 1
      have : (s : K) * (k : K) = ((s * k : ℕ) : K) := by push_cast; rfl
      rw [this, Int.floor_natCast, Int.toNat_natCast]
  have hy : interpolate .nearest (List.replicate sizes.length (.factor (k : K))) q.value = some ⟨N :: C :: sizes.map (· * k), fun idx =>
      ((tapsNd .nearest sizes (List.replicate sizes.length (.factor (k : K))) (idx.drop 2)).map fun p => p.2 * q.value.data (idx.take 2 ++ p.1)).sum⟩ := by
    unfold interpolate
    simp only [hs]
    rw [if_pos ⟨hne, by simp, h0⟩, hout]
  refine ⟨{ q with value := ⟨N :: C :: sizes.map (· * k), fun idx =>
      ((tapsNd .nearest sizes (List.replicate sizes.length (.factor (k : K))) (idx.drop 2)).map fun p => p.2 * q.value.data (idx.take 2 ++ p.1)).sum⟩ }, ?_, ⟨rfl, rfl, rfl, rfl, rfl⟩, ?_, ?_⟩
  · simp [Upsample.Layer.forward, hy, torchOp, Except.bind, packOutput, isQuant]
  · rfl
  · intro a b ds hi
    rcases hi with _ | ⟨-, _ | ⟨-, hds⟩⟩
    have hds' : List.Forall₂ (fun d s => d < s * k) ds sizes := by
      rw [List.forall₂_map_right_iff] at hds; exact hds
    show ((tapsNd .nearest sizes (List.replicate sizes.length (.factor (k : K))) ds).map fun p => p.2 * q.value.data ([a, b] ++ p.1)).sum = _
    rw [tapsNd_factor k hk sizes ds hds']
    simp

theorem taps_same (align : Bool) (n d : ℕ) (h : d < n) (f : ℕ → K) :
    ((taps (.linear align) (Resize.ratio (.linear align) n (.size n : Resize K)) n d).map fun p => p.2 * f p.1).sum = f d := by
  have hsrc : (if align = true then (d : K) * Resize.ratio (.linear align) n (.size n : Resize K)
      else max (((d : K) + 1 / 2) * Resize.ratio (.linear align) n (.size n : Resize K) - 1 / 2) 0) = d := by
    have hn : (n : K) ≠ 0 := by exact_mod_cast (by omega : n ≠ 0)
    cases align with
    | false => simp [Resize.ratio, div_self hn]
    | true =>
      rw [if_pos rfl, Resize.ratio, if_pos rfl]
      by_cases h1 : n ≤ 1
      · have : d = 0 := by omega
        subst this; simp
      · have : (n : K) - 1 ≠ 0 := by
          rw [sub_ne_zero]
          exact_mod_cast (by omega : n ≠ 1)
        rw [if_neg (show ¬Resize.outSize n (.size n : Resize K) ≤ 1 from h1)]
        show (d : K) * (((n : K) - 1) / ((n : K) - 1)) = d
        rw [div_self this, mul_one]
  simp only [taps, hsrc]
  have : clampIndex n ⌊(d : K)⌋ = d := by rw [Int.floor_natCast]; unfold clampIndex; omega
  rw [this]
  simp

theorem tapsNd_same (align : Bool) : ∀ (sizes ds : List ℕ), List.Forall₂ (· < ·) ds sizes → ∀ f : List ℕ → K,
    ((tapsNd (.linear align) sizes (sizes.map .size) ds).map fun p => p.2 * f p.1).sum = f ds
  | [], _, h, f => by cases h; simp [tapsNd]
  | s :: sizes, _, .cons (a := d) hd h, f => by
    rename_i ds
    have split : ∀ (l : List (ℕ × K)) (m : List (List ℕ × K)), ((l.flatMap fun p => m.map fun q => (p.1 :: q.1, p.2 * q.2)).map fun p => p.2 * f p.1).sum =
        (l.map fun p => p.2 * (m.map fun q => q.2 * f (p.1 :: q.1)).sum).sum := by
      intro l m
      induction l with
      | nil => simp
      | cons p l ih =>
        simp only [List.flatMap_cons, List.map_append, List.sum_append, ih, List.map_cons, List.sum_cons, List.map_map]
        congr 1
        rw [← List.sum_map_mul_left]
        congr 1
        apply List.map_congr_left
        intro q _
        simp only [Function.comp, mul_assoc]
    simp only [List.map_cons, tapsNd]
    rw [split]
    have : ∀ i, ((tapsNd (.linear align) sizes (sizes.map .size) ds).map fun q => q.2 * f (i :: q.1)).sum = f (i :: ds) := fun i => tapsNd_same align sizes ds h fun l => f (i :: l)
    simp only [this]
    exact taps_same align s d hd fun i => f (i :: ds)

/-- C105, same size: linear upsampling to the size a quant tensor already has (with zero points that are integers) changes nothing. -/
theorem C105_same_size (q : ShapedQT K) (n : List ℕ → ℤ) (hq : HoldsCodes q n) (hz : IntegerZeroPoints q) (align : Bool) (N C : ℕ) (sizes : List ℕ)
    (hs : q.value.shape = N :: C :: sizes) (hne : sizes ≠ []) (h0 : 0 ∉ sizes) :
    ∃ r : ShapedQT K, (⟨.linear align, sizes.map .size, true⟩ : Upsample.Layer K).forward (.quant q) = .ok (.quant r) ∧ SameMeta q r ∧ r.value.shape = q.value.shape ∧
      ∀ idx, InBounds q.value.shape idx → r.value.data idx = q.value.data idx := by
  have hout : List.zipWith (fun s (z : Resize K) => z.outSize s) sizes (sizes.map .size) = sizes := by
    clear hs hne h0
    induction sizes with
    | nil => rfl
    | cons s sizes ih => rw [List.map_cons, List.zipWith_cons_cons, ih]; rfl
  obtain ⟨y, hy, hys, hyd⟩ : ∃ y, interpolate (.linear align) (sizes.map .size) q.value = some y ∧ y.shape = q.value.shape ∧
      ∀ idx, InBounds q.value.shape idx → y.data idx = q.value.data idx := by
    refine ⟨⟨N :: C :: sizes, fun idx => ((tapsNd (.linear align) sizes (sizes.map .size) (idx.drop 2)).map fun p => p.2 * q.value.data (idx.take 2 ++ p.1)).sum⟩, ?_, hs.symm, ?_⟩
    · unfold interpolate
      simp only [hs]
      rw [if_pos ⟨hne, by simp, h0⟩, hout]
    · intro idx hi
      rw [hs] at hi
      rcases idx with _ | ⟨a, _ | ⟨b, ds⟩⟩
      · cases hi
      · cases (List.forall₂_cons.mp hi).2
      obtain ⟨ha, hi'⟩ := List.forall₂_cons.mp hi
      obtain ⟨hb, hds⟩ := List.forall₂_cons.mp hi'
      exact tapsNd_same align sizes ds hds fun l => q.value.data ([a, b] ++ l)
  obtain ⟨v, hv, hvs, hvd⟩ := roundToScale_eq (y := y) (s := q.scale) (by rw [hys]; exact hq.scale_shape)
  refine ⟨{ q with value := v }, by simp [Upsample.Layer.forward, hy, hv, torchOp, Except.bind, packOutput, isQuant], ⟨rfl, rfl, rfl, rfl, rfl⟩, hvs.trans hys, ?_⟩
  intro idx hi
  show v.data idx = _
  rw [hvd idx (hys ▸ hi), hyd idx hi, (hq.codes idx hi).1]
  obtain ⟨z, hzz⟩ := hz _ (bcIndex_mem hq.zeroPoint_shape hi)
  have hp := hq.scale_pos idx hi
  rw [hzz, mul_div_cancel_right₀ _ hp.ne']
  have e : ((n idx : K) - z) = ((n idx - z : ℤ) : K) := by push_cast; rfl
  rw [e, torchRound_faithful.int]

/-- C105, what is returned: without `return_quant_tensor` the layer returns the values of the quant tensor that it returns with it. -/
theorem C105_plain_result (mode : Mode) (zs : List (Resize K)) (q : ShapedQT K) (r : LayerOut K) (h : (⟨mode, zs, true⟩ : Upsample.Layer K).forward (.quant q) = .ok r) :
    isQuant r = true ∧ (⟨mode, zs, false⟩ : Upsample.Layer K).forward (.quant q) = .ok (.plain (unpack r)) := by
  unfold Upsample.Layer.forward at h ⊢
  simp only at h ⊢
  cases hy : torchOp (interpolate mode zs q.value) with
  | error e => rw [hy] at h; cases h
  | ok y =>
    rw [hy] at h
    simp only [Except.bind] at h ⊢
    cases hv : (if mode ≠ .nearest then torchOp (Upsample.roundToScale y q.scale) else .ok y : Except LayerError (NdTensor K)) with
    | error e => rw [hv] at h; cases h
    | ok v =>
      rw [hv] at h
      simp only [packOutput, if_true, isQuant] at h
      rw [← Except.ok.inj h]
      exact ⟨rfl, rfl⟩

/-! ### Where C105 fails -/

/-- C105 fails for plain tensors: every upsampling layer raises, in mode `nearest` too. -/
theorem C105_plain_input_raises (l : Upsample.Layer K) (zs : List (Resize K)) (r : Bool) (x : NdTensor K) :
    l.forward (.plain x) = .error .other ∧ Upsample.bilinear2d zs r (.plain x) = .error .other ∧ Upsample.nearest2d zs r (.plain x) = .error .other := ⟨rfl, rfl, rfl⟩

/-- A row of four pixels. -/
def Sample.row (v : List ℚ) : NdTensor ℚ := ⟨[1, 1, 1, 4], fun idx => v.getD (idx.getD 3 0) 0⟩

/-- C105 fails for `bicubic`: interpolated values leave the range of the container (8 bit here), and what is returned is not a valid quant tensor. -/
theorem C105_bicubic_overflows :
    Sample.show ((⟨.bicubic, [.size 1, .factor 2], true⟩ : Upsample.Layer ℚ).forward (.quant (int8Tensor (Sample.row [0, 127, 127, 0]) (scalarTensor 1)))) =
      some ([1, 1, 1, 8], [-13, 29, 98, 145, 145, 98, 29, -13], 8, some false) := by decide +kernel

/-- C105 fails for zero points that are not integers, as a layer with a float bias returns them: the values of a quant tensor are rounded to multiples of the scale, which are not codes of
the zero point. -/
theorem C105_fractional_zero_point : ∃ (q : ShapedQT ℚ) (n : List ℕ → ℤ), HoldsCodes q n ∧ ChannelMeta q ∧
    Sample.show ((⟨.linear false, [.size 1, .factor 2], true⟩ : Upsample.Layer ℚ).forward (.quant q)) = some ([1, 1, 1, 8], [1, 1, 2, 2, 2, 3, 4, 4], 8, some false) := by
  refine ⟨⟨Sample.row [3/4, 7/4, 11/4, 15/4], scalarTensor 1, scalarTensor (1/4), 8, true, false⟩, fun idx => [1, 2, 3, 4].getD (idx.getD 3 0) 0,
    ⟨broadcasts_nil _, broadcasts_nil _, fun _ _ => by simp [scalarTensor], ?_⟩, ⟨Or.inl rfl, Or.inl rfl⟩, by decide +kernel⟩
  intro idx hi
  have hi' : idx ∈ indices [1, 1, 1, 4] := (mem_indices _ _).mpr hi
  have hall : ∀ idx ∈ indices [1, 1, 1, 4], (Sample.row [3/4, 7/4, 11/4, 15/4]).data idx = ((([1, 2, 3, 4] : List ℤ).getD (idx.getD 3 0) 0 : ℚ) - 1/4) * 1 ∧
      Spec.lo true false 8 ≤ ([1, 2, 3, 4] : List ℤ).getD (idx.getD 3 0) 0 ∧ ([1, 2, 3, 4] : List ℤ).getD (idx.getD 3 0) 0 ≤ Spec.hi true false 8 := by decide +kernel
  exact hall idx hi'

/-! ### Examples -/

/-- An 8 bit image. -/
def Sample.image : ShapedQT ℚ := int8Tensor (Sample.row [1/2, 3, -5/2, 4]) (scalarTensor (1/2))

example : ((⟨.linear false, [.size 1, .factor 2], true⟩ : Upsample.Layer ℚ).forward (.quant Sample.image)).toOption.map
    (fun o => ((unpack o).shape, (indices (unpack o).shape).map (unpack o).data)) = some ([1, 1, 1, 8], [1/2, 1, 5/2, 3/2, -1, -1, 5/2, 4]) := by decide +kernel

example : (Upsample.bilinear2d [.size 1, .size 7] true (.quant Sample.image)).toOption.map
    (fun o => ((unpack o).shape, (indices (unpack o).shape).map (unpack o).data)) = some ([1, 1, 1, 7], [1/2, 2, 3, 0, -5/2, 1, 4]) := by decide +kernel

example : ((⟨.nearest, [.size 2, .factor 2], true⟩ : Upsample.Layer ℚ).forward (.quant Sample.image)).toOption.map
    (fun o => ((unpack o).shape, (indices (unpack o).shape).map (unpack o).data)) =
      some ([1, 1, 2, 8], [1/2, 1/2, 3, 3, -5/2, -5/2, 4, 4, 1/2, 1/2, 3, 3, -5/2, -5/2, 4, 4]) := by decide +kernel

/-- The hypotheses of the theorems. -/
example : HoldsCodes Sample.image (fun idx => [1, 6, -5, 8].getD (idx.getD 3 0) 0) ∧ ChannelMeta Sample.image ∧ IntegerZeroPoints Sample.image := by
  refine ⟨⟨broadcasts_nil _, broadcasts_nil _, fun _ _ => by simp [Sample.image, int8Tensor, scalarTensor], ?_⟩, ⟨Or.inl rfl, Or.inl rfl⟩, fun _ _ => ⟨0, by simp [Sample.image, int8Tensor]⟩⟩
  intro idx hi
  have hi' : idx ∈ indices [1, 1, 1, 4] := (mem_indices _ _).mpr hi
  have hall : ∀ idx ∈ indices [1, 1, 1, 4], (Sample.row [1/2, 3, -5/2, 4]).data idx = ((([1, 6, -5, 8] : List ℤ).getD (idx.getD 3 0) 0 : ℚ) - 0) * (1/2) ∧
      Spec.lo true false 8 ≤ ([1, 6, -5, 8] : List ℤ).getD (idx.getD 3 0) 0 ∧ ([1, 6, -5, 8] : List ℤ).getD (idx.getD 3 0) 0 ≤ Spec.hi true false 8 := by decide +kernel
  exact hall idx hi'

end Brevitas.Props
