import Verif.Lemmas.ChannelScale
import Verif.Lemmas.Scaling

/-!
# C95: the scale factor of a channel comes from the weights of that channel
-/

set_option linter.unusedSectionVars false

namespace Brevitas.Props

open Brevitas NdTensor ChannelScale

section General

variable {K : Type*} [Zero K]

/-- What the layers sharing a weight quantiser have in common: rank, dimension and number of output channels. -/
structure SameChannels (d C : ℕ) (layers : List (Layer K)) : Prop where
  nonempty : layers ≠ []
  some_channel : 0 < C
  channels : ∀ m ∈ layers, m.dim = d ∧ m.outChannels = C ∧ d < m.weight.shape.length ∧ m.weight.shape.getD d 0 = C
  rank : ∀ m ∈ layers, ∀ m' ∈ layers, m.weight.shape.length = m'.weight.shape.length

/-- C95: with a scale per channel, the statistic used for an element of a weight is that of all the weights, of all the layers sharing the quantiser,
that belong to the same output channel, and of no others; and its shape broadcasts to that of every weight. -/
theorem C95_per_channel (stat : List K → Option K) (hfree : OrderFree stat) (d C : ℕ) (layers : List (Layer K)) (hs : SameChannels d C layers)
    (hdef : ∀ c, c < C → (stat (layers.flatMap fun m => m.weight.channelElems d c)).isSome) :
    ∃ s, weightStats stat .channel layers = some s ∧ ∀ m ∈ layers, Broadcasts s.shape m.weight.shape ∧
      ∀ idx, InBounds m.weight.shape idx →
        some (s.data (bcIndex s.shape idx)) = stat (layers.flatMap fun m' => m'.weight.channelElems d (idx.getD d 0)) := by
  cases layers with
  | nil => exact absurd rfl hs.nonempty
  | cons first extra =>
    obtain ⟨hfd, hfo, hfl, hfc⟩ := hs.channels first (by simp)
    have hC : C ≠ 0 := by have := hs.some_channel; omega
    obtain ⟨x, hx, hx0, ⟨p, hxs⟩, hrow⟩ := statsInput_rows d C hC first.weight (extra.map (·.weight)) hfl hfc (by
      intro t ht
      rw [List.mem_map] at ht
      obtain ⟨m, hm, rfl⟩ := ht
      exact ⟨hs.rank m (List.mem_cons_of_mem _ hm) first (by simp), (hs.channels m (List.mem_cons_of_mem _ hm)).2.2.2⟩)
    have hflat : ∀ c, (first.weight :: extra.map (·.weight)).flatMap (channelElems d c) = (first :: extra).flatMap fun m => m.weight.channelElems d c := by
      intro c; simp [List.flatMap_map]
    have hstat : ∀ c, c < C → stat (row x c) = stat ((first :: extra).flatMap fun m => m.weight.channelElems d c) := by
      intro c hc; rw [← hflat]; exact hfree _ _ (hrow c hc)
    have hcond : ∀ i ∈ List.range (x.shape.getD 0 0), (stat (row x i)).isSome := by
      intro i hi
      rw [hx0, List.mem_range] at hi
      rw [hstat i hi]; exact hdef i hi
    have hguard : (∀ m ∈ first :: extra, m.outChannels = first.outChannels) ∧
        (∀ m ∈ first :: extra, m.weight.shape.length = first.weight.shape.length) ∧ (∀ m ∈ first :: extra, m.dim = first.dim) := by
      refine ⟨fun m hm => ?_, fun m hm => hs.rank m hm first (by simp), fun m hm => ?_⟩
      · rw [(hs.channels m hm).2.1, hfo]
      · rw [(hs.channels m hm).1, hfd]
    have hprod := prod_set_one first.weight.shape.length d C hfl
    refine ⟨⟨(List.replicate first.weight.shape.length 1).set d C, fun idx =>
      (stat (row x ((fromPosition [C] (Spec.ravel ((List.replicate first.weight.shape.length 1).set d C) idx)).getD 0 0))).getD 0⟩, ?_, ?_⟩
    · simp only [weightStats]
      rw [if_pos hguard]
      simp only [List.map_cons, hfd, hx, Option.bind_eq_bind, Option.bind_some, reduceRows]
      rw [if_pos hcond]
      simp only [Option.bind_some, reshape, scalingShape, hfo, hx0]
      rw [if_pos (by rw [hprod]; simp)]
    · intro m hm
      have hml := hs.rank m hm first (by simp)
      have hmc := (hs.channels m hm).2.2.2
      refine ⟨?_, ?_⟩
      · have := broadcasts_channel m.weight.shape d
        rw [hml, hmc] at this
        exact this
      · intro idx hidx
        have hil : idx.length = first.weight.shape.length := by rw [hidx.length, hml]
        have hic : idx.getD d 0 < C := by
          have := InRange.get ((inBounds_iff_inRange _ _).1 hidx) d (by omega)
          rw [hmc] at this
          exact this
        simp only [ravel_bcIndex _ d C idx hfl hil hic, fromPosition, List.prod_nil, Nat.div_one, List.getD_cons_zero]
        rw [hstat _ hic]
        obtain ⟨v, hv⟩ := Option.isSome_iff_exists.1 (hdef _ hic)
        rw [hv]
        rfl

/-- C95: with one scale for the tensor, the statistic is that of all the weights of all the layers sharing the quantiser, whatever their shapes. -/
theorem C95_per_tensor (stat : List K → Option K) (hfree : OrderFree stat) (layers : List (Layer K)) (hne : layers ≠ [])
    (hdef : (stat (layers.flatMap fun m => m.weight.elems)).isSome) :
    ∃ s, weightStats stat .tensor layers = some s ∧ s.shape = [] ∧
      ∀ idx, some (s.data (bcIndex s.shape idx)) = stat (layers.flatMap fun m => m.weight.elems) := by
  cases layers with
  | nil => exact absurd rfl hne
  | cons first extra =>
    obtain ⟨x, hx, -, hxp⟩ := statsInput_flat first.weight (extra.map (·.weight))
    have hflat : (first.weight :: extra.map (·.weight)).flatMap elems = (first :: extra).flatMap fun m => m.weight.elems := by simp [List.flatMap_map]
    have hstat : stat (flat x) = stat ((first :: extra).flatMap fun m => m.weight.elems) := by rw [← hflat]; exact hfree _ _ hxp
    obtain ⟨v, hv⟩ := Option.isSome_iff_exists.1 hdef
    rw [hv] at hstat
    refine ⟨⟨[], fun _ => v⟩, ?_, rfl, ?_⟩
    · simp only [weightStats, List.map_cons, hx, Option.bind_eq_bind, Option.bind_some, reduceAll]
      rw [show (List.range (x.shape.getD 0 0)).map (fun j => x.data [j]) = flat x from rfl, hstat]
      simp only [Option.map_some, Option.bind_some, reshape, scalingShape, if_true]
    · intro idx
      rw [hv]

/-- A grouped transposed convolution has `out / groups` rows in its weight but announces `out` channels: with a scale per channel the quantiser always
raises. -/
theorem C95_grouped_transposed_raises (stat : List K → Option K) (outCh inCh groups : ℕ) (kernel : List ℕ) (data : List ℕ → K)
    (hout : 0 < outCh) (hg : 1 < groups) (hdvd : groups ∣ outCh) :
    weightStats stat .channel [transposedLayer outCh inCh groups kernel data] = none := by
  obtain ⟨q, rfl⟩ := hdvd
  have hq : 0 < q := Nat.pos_of_mul_pos_left hout
  have hdiv : groups * q / groups = q := Nat.mul_div_cancel_left _ (by omega)
  obtain ⟨v, hv, ⟨p, hvs⟩, -⟩ := view_rows (⟨inCh :: q :: kernel, data⟩ : NdTensor K) 1 (by simp) (by simp; omega)
  simp only [List.getD_cons_succ, List.getD_cons_zero] at hvs
  have hne : ((List.replicate (kernel.length + 1 + 1) 1).set 1 (groups * q)).prod ≠ q := by
    rw [prod_set_one _ 1 _ (by omega)]
    intro h
    have : 2 * q ≤ groups * q := Nat.mul_le_mul_right _ hg
    omega
  have hx : statsInput (overOutputChannelView (permuteDims (inCh :: q :: kernel).length 1)) 1 [(⟨inCh :: q :: kernel, data⟩ : NdTensor K)] = some v := by
    simp only [statsInput, Option.bind_eq_bind]
    rw [hv]
    rfl
  simp only [weightStats, transposedLayer, hdiv]
  rw [if_pos (by simp)]
  simp only [List.map_cons, List.map_nil, hx, Option.bind_eq_bind, Option.bind_some, reduceRows, hvs, List.getD_cons_zero]
  split
  · simp only [Option.bind_some, reshape, scalingShape, List.length_cons, List.prod_cons, List.prod_nil, mul_one]
    rw [if_neg hne]
  · rfl

end General

section Ordered

variable {K : Type*} [Field K] [LinearOrder K] [IsStrictOrderedRing K] [FloorRing K]

theorem channelElems_ne_nil {t : NdTensor K} {idx : List ℕ} (h : InBounds t.shape idx) (d : ℕ) : t.data idx ∈ t.channelElems d (idx.getD d 0) := by
  unfold channelElems
  exact List.mem_map_of_mem (List.mem_filter.2 ⟨(mem_indices _ _).2 h, by simp⟩)

/-- C95, for the largest absolute value: it bounds every weight of the channel, and is reached by one of them, possibly in another layer sharing the
quantiser.  Every channel is assumed to have a weight. -/
theorem C95_abs_max (d C : ℕ) (layers : List (Layer K)) (hs : SameChannels d C layers)
    (hfull : ∀ c, c < C → ∃ m ∈ layers, ∃ idx, InBounds m.weight.shape idx ∧ idx.getD d 0 = c) :
    ∃ s, weightStats absMax .channel layers = some s ∧ ∀ m ∈ layers, Broadcasts s.shape m.weight.shape ∧
      ∀ idx, InBounds m.weight.shape idx → |m.weight.data idx| ≤ s.data (bcIndex s.shape idx) ∧
        ∃ m' ∈ layers, ∃ idx', InBounds m'.weight.shape idx' ∧ idx'.getD d 0 = idx.getD d 0 ∧ |m'.weight.data idx'| = s.data (bcIndex s.shape idx) := by
  obtain ⟨s, hw, hm⟩ := C95_per_channel absMax absMax_orderFree d C layers hs (by
    intro c hc
    obtain ⟨m, hm, idx, hi, rfl⟩ := hfull c hc
    rw [absMax_eq]
    · rfl
    · exact List.ne_nil_of_mem (List.mem_flatMap.2 ⟨m, hm, channelElems_ne_nil hi d⟩))
  refine ⟨s, hw, fun m hmem => ⟨(hm m hmem).1, fun idx hidx => ?_⟩⟩
  have he := (hm m hmem).2 idx hidx
  have hmemb : m.weight.data idx ∈ layers.flatMap fun m' => m'.weight.channelElems d (idx.getD d 0) :=
    List.mem_flatMap.2 ⟨m, hmem, channelElems_ne_nil hidx d⟩
  rw [absMax_eq (List.ne_nil_of_mem hmemb)] at he
  rw [Option.some.inj he]
  refine ⟨maxAbs_spec.1 _ hmemb, ?_⟩
  obtain ⟨x, hx, hxe⟩ := maxAbs_spec.2 (List.ne_nil_of_mem hmemb)
  obtain ⟨m', hm', hx'⟩ := List.mem_flatMap.1 hx
  unfold channelElems at hx'
  obtain ⟨idx', hi', rfl⟩ := List.mem_map.1 hx'
  obtain ⟨hin, hc⟩ := List.mem_filter.1 hi'
  exact ⟨m', hm', idx', (mem_indices _ _).1 hin, by simpa using hc, hxe⟩

/-- C95: quantising a weight with a signed narrow integer quantiser and a scale per channel from the largest absolute value reconstructs every element of
a channel that is not entirely zero to within half the scale of that channel, whatever the other channels contain.  `layers` are those sharing the
quantiser. -/
theorem C95_half_step (c : IntQuantCfg K) (hsg : c.signed = true) (hna : c.narrow = true) (hr : c.floatToInt = torchRound) (b : ℕ) (hb : 2 ≤ b)
    (mn : Option K) (d C : ℕ) (layers : List (Layer K)) (hs : SameChannels d C layers)
    (hfull : ∀ c, c < C → ∃ m ∈ layers, ∃ idx, InBounds m.weight.shape idx ∧ idx.getD d 0 = c) (m : Layer K) (hm : m ∈ layers) :
    ∃ q s, perChannelWeightQuant c b mn layers m.weight = some (q, s) ∧ q.shape = m.weight.shape ∧
      ∀ idx, InBounds m.weight.shape idx →
        (∃ m' ∈ layers, ∃ idx', InBounds m'.weight.shape idx' ∧ idx'.getD d 0 = idx.getD d 0 ∧ m'.weight.data idx' ≠ 0) →
        0 < s.data (bcIndex s.shape idx) ∧ |q.data idx - m.weight.data idx| ≤ s.data (bcIndex s.shape idx) / 2 := by
  obtain ⟨st, hw, hall⟩ := C95_abs_max d C layers hs hfull
  have hbc := (hall m hm).1
  refine ⟨⟨m.weight.shape, fun idx => c.forward (statsScalingFp mn (st.data (bcIndex st.shape idx)) (intScaling c.signed c.narrow b)) 0 b
    (m.weight.data (bcIndex m.weight.shape idx))⟩,
    ⟨st.shape, fun idx => statsScalingFp mn (st.data idx) (intScaling c.signed c.narrow b)⟩, ?_, rfl, ?_⟩
  · simp only [perChannelWeightQuant, hw, Option.bind_eq_bind, Option.bind_some, bcOp, NdTensor.map]
    rw [bcShape_of_broadcasts hbc]
    rfl
  · rintro idx hidx ⟨m', hm', idx', hidx', hch, hnz⟩
    obtain ⟨hle, -⟩ := (hall m hm).2 idx hidx
    obtain ⟨hle', -⟩ := (hall m' hm').2 idx' hidx'
    obtain ⟨s', hw', hall'⟩ := C95_per_channel absMax absMax_orderFree d C layers hs (by
      intro c hc
      obtain ⟨m, hm, idx, hi, rfl⟩ := hfull c hc
      rw [absMax_eq]
      · rfl
      · exact List.ne_nil_of_mem (List.mem_flatMap.2 ⟨m, hm, channelElems_ne_nil hi d⟩))
    obtain rfl : st = s' := Option.some.inj (hw.symm.trans hw')
    have e1 := (hall' m hm).2 idx hidx
    have e2 := (hall' m' hm').2 idx' hidx'
    rw [hch] at e2
    have heq : st.data (bcIndex st.shape idx') = st.data (bcIndex st.shape idx) := Option.some.inj (e2.trans e1.symm)
    rw [heq] at hle'
    have hapos : 0 < st.data (bcIndex st.shape idx) := (abs_pos.mpr hnz).trans_le hle'
    simp only [bcIndex_inBounds hidx]
    set a := st.data (bcIndex st.shape idx) with ha
    have hT : (0 : K) < ((2 ^ (b - 1) - 1 : ℤ) : K) := by
      have : (2 : ℤ) ^ 1 ≤ 2 ^ (b - 1) := pow_le_pow_right₀ (by norm_num) (by omega)
      exact_mod_cast (by omega : (0 : ℤ) < 2 ^ (b - 1) - 1)
    have hsge : a / ((2 ^ (b - 1) - 1 : ℤ) : K) ≤ statsScalingFp mn a (intScaling c.signed c.narrow b) := by
      rw [hsg, hna, intScaling_signed_narrow (by omega)]; exact le_clampMinVal _ _
    have hspos : 0 < statsScalingFp mn a (intScaling c.signed c.narrow b) := (div_pos hapos hT).trans_le hsge
    refine ⟨hspos, ?_⟩
    set s := statsScalingFp mn a (intScaling c.signed c.narrow b) with hsdef
    have habs : |m.weight.data idx / s| ≤ ((2 ^ (b - 1) - 1 : ℤ) : K) := by
      rw [abs_div, abs_of_pos hspos, div_le_iff₀ hspos]
      rw [div_le_iff₀ hT] at hsge
      linarith [mul_comm s ((2 ^ (b - 1) - 1 : ℤ) : K)]
    rw [abs_le] at habs
    apply forward_half_step_of_near c hr hspos (by omega)
    · rw [hsg, hna]; simp only [Spec.lo, if_true]; push_cast at habs ⊢; linarith [habs.1]
    · rw [hsg, hna]; simp only [Spec.hi, if_true]; linarith [habs.2]

/-- C95, for the mean of the channel maxima with one scale for the tensor: it is the mean over all the channels of all the layers sharing the quantiser,
provided that they all have the same number of weights per channel. -/
theorem C95_max_ave_partial (d r p : ℕ) (layers : List (Layer K)) (hne : layers ≠ []) (hp : 0 < p)
    (hall : ∀ m ∈ layers, m.dim = d ∧ m.weight.shape.length = r ∧ d < r ∧ m.weight.shape.getD d 0 ≠ 0 ∧ m.weight.fanIn d = p) :
    ∃ s, maxAveStats layers = some s ∧ s.shape = [] ∧
      ∀ idx, s.data idx = ((layers.flatMap fun m => m.weight.channels d).map maxAbs).sum / (layers.flatMap fun m => m.weight.channels d).length := by
  cases layers with
  | nil => exact absurd rfl hne
  | cons first extra =>
    obtain ⟨hfd, hfr, hdr, hfn, hfp⟩ := hall first (by simp)
    obtain ⟨x, R, hx, hR, hperm, hlen⟩ := statsInput_rows0 d p first.weight (extra.map (·.weight)) (by
      intro t ht
      have ht' : t ∈ (first :: extra).map (·.weight) := by simpa using ht
      obtain ⟨m, hm, rfl⟩ := List.mem_map.1 ht'
      obtain ⟨-, h2, h3, h4, h5⟩ := hall m hm
      exact ⟨h2.trans hfr.symm, h2 ▸ h3, h4, h5⟩)
    have hflat : (first.weight :: extra.map (·.weight)).flatMap (NdTensor.channels d) = (first :: extra).flatMap fun m => m.weight.channels d := by
      simp [List.flatMap_map]
    rw [hflat] at hperm
    have hnil : ∀ r ∈ R, r ≠ [] := by
      intro r hr h
      have := hlen r hr
      rw [h] at this
      simp at this
      omega
    have hRne : R.map maxAbs ≠ [] := by
      intro h
      have h1 := hperm.length_eq
      rw [h] at h1
      simp only [List.length_nil, List.length_map, List.flatMap_cons, List.length_append, NdTensor.channels, List.length_range] at h1
      omega
    have hmean : torchMean (R.map maxAbs) = some ((((first :: extra).flatMap fun m => m.weight.channels d).map maxAbs).sum / (((first :: extra).flatMap fun m =>
        m.weight.channels d).length : K)) := by
      have hl := hperm.length_eq
      cases hRm : R.map maxAbs with
      | nil => exact absurd hRm hRne
      | cons a l =>
        simp only [torchMean]
        rw [← hRm, hperm.sum_eq, hl, List.length_map]
    refine ⟨⟨[], fun _ => (((first :: extra).flatMap fun m => m.weight.channels d).map maxAbs).sum / (((first :: extra).flatMap fun m =>
      m.weight.channels d).length : K)⟩, ?_, rfl, fun _ => rfl⟩
    have hg : (∀ m ∈ first :: extra, m.dim = first.dim) ∧ (first.dim ≠ 0 → ∀ m ∈ first :: extra, m.weight.shape.length = first.weight.shape.length) := by
      refine ⟨fun m hm => ?_, fun _ m hm => ?_⟩
      · rw [(hall m hm).1, hfd]
      · rw [(hall m hm).2.1, hfr]
    simp only [maxAveStats]
    rw [if_pos hg]
    simp only [List.map_cons, hfd, hx, Option.bind_eq_bind, Option.bind_some, reduceMaxAve, hR, absMaxAve, mapM_absMax hnil, hmean, Option.map_some,
      scalingShape, reshape, if_true]

/-- Two layers with a different number of weights per channel cannot share a quantiser with the mean of the channel maxima: it raises. -/
theorem C95_max_ave_shared_raises (d : ℕ) (a b : Layer K) (ha : a.dim = d) (hb : b.dim = d) (hda : d < a.weight.shape.length)
    (hr : b.weight.shape.length = a.weight.shape.length) (hna : a.weight.shape.getD d 0 ≠ 0) (hnb : b.weight.shape.getD d 0 ≠ 0)
    (hfan : a.weight.fanIn d ≠ b.weight.fanIn d) : maxAveStats [a, b] = none := by
  obtain ⟨v, hv, -, -⟩ := view_rows a.weight d hda hna
  obtain ⟨w, hw, -, -⟩ := view_rows b.weight d (by omega) hnb
  have hvs := view_shape a.weight d hda hna v hv
  have hws := view_shape b.weight d (by omega) hnb w hw
  have hcat : NdTensor.cat 0 [w, v] = none := by
    have hdim : dimOf w.shape.length 0 = some 0 := by rw [hws]; rfl
    simp only [NdTensor.cat, hdim]
    rw [if_neg]
    intro h
    have := h v (by simp)
    rw [hvs, hws] at this
    simp only [List.set_cons_zero, List.cons.injEq, true_and, and_true] at this
    exact hfan this
  rw [hr] at hw
  simp only [maxAveStats]
  rw [if_pos (by simp [ha, hb, hr])]
  simp only [List.map_cons, List.map_nil, statsInput, ha, hv, Option.bind_eq_bind, Option.bind_some, List.foldlM_cons, List.foldlM_nil, hw, hcat,
    Option.bind_none]

end Ordered

/-! ## Concrete cases -/

/-- Weight with value `10 * a + b - 25` at `(a, b)`. -/
def cw (idx : List ℕ) : ℚ := 10 * idx.getD 0 0 + idx.getD 1 0 - 25

/-- Two linear layers of three channels with two and four inputs. -/
def exShared : List (Layer ℚ) := [convLayer 3 2 1 [] cw, convLayer 3 4 1 [] cw]

/-- A transposed convolution: three inputs, two output channels, kernel of size two. -/
def exTransposed : List (Layer ℚ) := [transposedLayer 2 3 1 [2] cw]

example : SameChannels 0 3 exShared where
  nonempty := by simp [exShared]
  some_channel := by norm_num
  channels := by simp [exShared, convLayer]
  rank := by simp [exShared, convLayer]

example : SameChannels 1 2 exTransposed where
  nonempty := by simp [exTransposed]
  some_channel := by norm_num
  channels := by simp [exTransposed, transposedLayer]
  rank := by simp [exTransposed]

/-- Every channel has a weight. -/
example : ∀ c, c < 3 → ∃ m ∈ exShared, ∃ idx, InBounds m.weight.shape idx ∧ idx.getD 0 0 = c := by
  intro c hc
  refine ⟨convLayer 3 2 1 [] cw, by simp [exShared], [c, 0], ?_, rfl⟩
  exact inBounds_cons.2 ⟨hc, inBounds_cons.2 ⟨by norm_num, List.Forall₂.nil⟩⟩

example : (weightStats absMax .channel exShared).map (fun s => (s.shape, s.data [0, 0], s.data [1, 0], s.data [2, 0])) = some ([3, 1], 25, 15, 5) := by
  decide +kernel

example : (weightStats absMax .channel exTransposed).map (fun s => (s.shape, s.data [0, 0, 0], s.data [0, 1, 0])) = some ([1, 2, 1], 25, 24) := by
  decide +kernel

example : (perChannelWeightQuant (⟨true, true, torchRound⟩ : IntQuantCfg ℚ) 3 none exShared (convLayer 3 2 1 [] cw).weight).map
    (fun r => (r.1.shape, r.1.data [0, 1], r.2.data [0, 0], r.1.data [2, 1], r.2.data [2, 0])) = some ([3, 2], -25, 25 / 3, -10 / 3, 5 / 3) := by
  decide +kernel

example : (weightStats absMax .tensor exShared).map (fun s => (s.shape, s.data [])) = some ([], 25) := by decide +kernel

example : (maxAveStats [convLayer 3 2 1 [] cw]).map (fun s => (s.shape, s.data [])) = some ([], 15) := by decide +kernel

example : (maxAveStats exShared).isNone = true := by decide +kernel

end Brevitas.Props
