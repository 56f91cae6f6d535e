import Verif.Lemmas.FloatTensor
import Verif.Props.Float

/-!
# C61 - C63: minifloat quant tensors
-/

set_option linter.unusedSectionVars false

namespace Brevitas.Props

open Brevitas

variable {K : Type*} [Field K] [LinearOrder K] [IsStrictOrderedRing K] [FloorRing K]

/-- The tensor holds scale times the minifloats `ms`, each of which has a code in the format the tensor declares. -/
def HoldsMinifloats (q : FloatQT K) (ms : List K) : Prop :=
  q.value = (ms.map fun m => m * q.scale) ∧ ∀ m ∈ ms, Spec.Representable q.E q.M q.bias q.signed m

/-- The epsilon (smallest normal number of the data type) is below half the smallest subnormal step of the declared format. -/
def TensorSmallEps (q : FloatQT K) (eps : K) : Prop := 0 < eps ∧ eps < 2 ^ (1 - q.bias - q.M - 1)

private theorem HoldsMinifloats.exact {q : FloatQT K} {ms : List K} (h : HoldsMinifloats q ms) {eps atol : K} (he : TensorSmallEps q eps)
    (ha : 0 < atol) (hs : 0 < q.scale) (hs1 : q.scale ≤ 1) (hne : ms ≠ []) :
    q.isValid eps atol = some true ∧ q.minifloat eps atol = some ms :=
  q.exact he.1 he.2 ha hs hs1 hne (fun m hm => Rep.onG (h.2 m hm)) h.1

/-- A signed E4M3 tensor (bias 7, OCP codes) in evaluation mode. -/
def e4m3Tensor (value : List ℚ) (scale : ℚ) : FloatQT ℚ := ⟨value, scale, 0, 4, 3, 7, true, none, some [[true, true, true]], true, false⟩

/-! ## C61 -/

/-- C61: a non-empty tensor holding minifloats times a scale of at most one is valid, and `minifloat()` returns exactly those minifloats.
Missing: scales above one, for which it fails (`C61_large_scale_rejected`). -/
theorem C61_round_trip_partial (q : FloatQT K) (ms : List K) (h : HoldsMinifloats q ms) (hne : ms ≠ []) (eps atol : K)
    (he : TensorSmallEps q eps) (ha : 0 < atol) (hs : 0 < q.scale) (hs1 : q.scale ≤ 1) :
    q.isValid eps atol = some true ∧ q.minifloat eps atol = some ms := h.exact he ha hs hs1 hne

/-- C61: what the saturating quantiser returns with a scale of at most one, wrapped with the format and scale of the quantiser, is valid, and its
minifloats times the scale are the values. Missing: scales above one, as above. -/
theorem C61_quantizer_output_partial (c : FloatCfg K) (hc : FloatOk c) (he : SmallEps c) (scale : K) (hs : 0 < scale) (hs1 : scale ≤ 1)
    (xs : List K) (hne : xs ≠ []) (atol : K) (ha : 0 < atol) (zp : K) (training : Bool) :
    let q : FloatQT K := ⟨xs.map fun x => c.forwardSat scale x, scale, zp, c.E, c.M, c.bias, c.saturating, c.infValues, c.nanValues, c.signed,
      training⟩
    q.isValid c.eps atol = some true ∧
    ∃ ms, q.minifloat c.eps atol = some ms ∧ (ms.map fun m => m * scale) = q.value ∧
      ∀ m ∈ ms, Spec.Representable c.E c.M c.bias c.signed m := by
  intro q
  have hall : ∀ x ∈ xs, ∃ m, Spec.Representable c.E c.M c.bias c.signed m ∧ c.forwardSat scale x = m * scale := by
    intro x _
    obtain ⟨m, h1, -, h2⟩ := C22_representable c hc scale x
    exact ⟨m, h1, h2⟩
  have hms : ∃ ms : List K, (xs.map fun x => c.forwardSat scale x) = (ms.map fun m => m * scale) ∧
      ∀ m ∈ ms, Spec.Representable c.E c.M c.bias c.signed m := by
    clear hne q
    induction xs with
    | nil => exact ⟨[], rfl, by simp⟩
    | cons x xs ih =>
      obtain ⟨ms, h1, h2⟩ := ih fun y hy => hall y (List.mem_cons_of_mem _ hy)
      obtain ⟨m, h3, h4⟩ := hall x (by simp)
      refine ⟨m :: ms, by rw [List.map_cons, List.map_cons, h1, h4], ?_⟩
      intro m' hm'
      rcases List.mem_cons.mp hm' with rfl | hm'
      · exact h3
      · exact h2 m' hm'
  obtain ⟨ms, h1, h2⟩ := hms
  have hne' : ms ≠ [] := by
    rintro rfl
    rw [List.map_nil, List.map_eq_nil_iff] at h1
    exact hne h1
  obtain ⟨h3, h4⟩ := (show HoldsMinifloats q ms from ⟨h1, h2⟩).exact (eps := c.eps) (atol := atol) ⟨hc.eps_pos, he⟩ ha hs hs1 hne'
  exact ⟨h3, ms, h4, h1.symm, h2⟩

/-- C61: `minifloat()` returns a value only for tensors that `is_valid` accepts, and one minifloat per element. -/
theorem C61_only_if_valid (q : FloatQT K) (eps atol : K) (ms : List K) (h : q.minifloat eps atol = some ms) :
    q.isValid eps atol = some true ∧ ms.length = q.value.length := by
  unfold FloatQT.minifloat at h
  cases hv : q.isValid eps atol with
  | none => rw [hv] at h; simp at h
  | some b =>
    cases b with
    | false => rw [hv] at h; simp at h
    | true =>
      rw [hv] at h
      simp only [Option.some.injEq] at h
      exact ⟨rfl, by rw [← h, List.length_map]⟩

/-- C61 fails for scales above one: the E4M3 tensor with scale 2 holding the representable 9/8 is rejected, because the position of its
significant bits is computed from the value before division by the scale. -/
theorem C61_large_scale_rejected :
    HoldsMinifloats (e4m3Tensor [9/4] 2) [9/8] ∧ (e4m3Tensor [9/4] 2).isValid (2 ^ (-126 : ℤ)) (1/5) = some false ∧
    (e4m3Tensor [9/4] 2).minifloat (2 ^ (-126 : ℤ)) (1/5) = none := by
  refine ⟨⟨by norm_num [e4m3Tensor], ?_⟩, by decide +kernel, by decide +kernel⟩
  intro m hm
  rw [List.mem_singleton] at hm
  subst hm
  exact ⟨7, 1, by decide, by decide, Or.inl (by norm_num [Spec.floatValue, e4m3Tensor])⟩

/-- C61: conversely a tensor is accepted whose only value is not scale times any representable number: E4M3 with scale 1/16 and
1 + 1/64 (which needs six mantissa bits). -/
theorem C61_extra_bits_accepted :
    (e4m3Tensor [65/1024] (1/16)).isValid (2 ^ (-126 : ℤ)) (1/5) = some true ∧
    (e4m3Tensor [65/1024] (1/16)).minifloat (2 ^ (-126 : ℤ)) (1/5) = some [65/64] ∧
    ¬ Spec.Representable 4 3 7 true (65/64 : ℚ) := by
  refine ⟨by decide +kernel, by decide +kernel, ?_⟩
  intro h
  have h1 := eps_fix torchRound_faithful 3 (1 - 7 - 3) (eps := (2 ^ (-126 : ℤ) : ℚ)) (by norm_num) (by norm_num) (Rep.onG h)
  rw [qAt] at h1
  have : (2 : ℚ) ^ internalExponent 3 (1 - 7 - 3) (2 ^ (-126 : ℤ)) (65/64 : ℚ) *
      ((torchRound ((65/64 : ℚ) / 2 ^ internalExponent 3 (1 - 7 - 3) (2 ^ (-126 : ℤ)) (65/64 : ℚ)) : ℤ) : ℚ) ≠ 65/64 := by decide +kernel
  exact this h1

/-- C61: values beyond the largest number of the format are accepted too (the code says that this check is missing). -/
theorem C61_out_of_range_accepted :
    (e4m3Tensor [1024] 1).isValid (2 ^ (-126 : ℤ)) (1/5) = some true ∧ (e4m3Tensor [1024] 1).minifloat (2 ^ (-126 : ℤ)) (1/5) = some [1024] ∧
    Spec.floatMax (K := ℚ) 4 3 7 < 1024 := by
  refine ⟨by decide +kernel, by decide +kernel, by norm_num [Spec.floatMax, Spec.floatValue]⟩

example : HoldsMinifloats (e4m3Tensor [9/16, -7/512] (1/2)) [9/8, -7/256] ∧ TensorSmallEps (e4m3Tensor [9/16, -7/512] (1/2)) (2 ^ (-126 : ℤ)) := by
  refine ⟨⟨by norm_num [e4m3Tensor], ?_⟩, by norm_num [TensorSmallEps, e4m3Tensor]⟩
  intro m hm
  simp only [List.mem_cons, List.not_mem_nil, or_false] at hm
  rcases hm with rfl | rfl
  · exact ⟨7, 1, by decide, by decide, Or.inl (by norm_num [Spec.floatValue, e4m3Tensor])⟩
  · exact ⟨1, 6, by decide, by decide, Or.inr ⟨rfl, by norm_num [Spec.floatValue, e4m3Tensor]⟩⟩
example : (e4m3Tensor [9/16, -7/512] (1/2)).minifloat (2 ^ (-126 : ℤ)) (1/5) = some [9/8, -7/256] := by decide +kernel
example : (e4m3Tensor [] (1/2)).isValid (2 ^ (-126 : ℤ)) (1/5) = none := by decide +kernel

/-! ## C62 -/

/-- C62: the negation of a signed tensor with zero point 0 and a scale of at most one holds the negated minifloats and values in the same
format, and is valid. Missing: other zero points and scales above one, for which it fails (`C62_zero_point_wrong`, `C62_large_scale_raises`). -/
theorem C62_neg_partial (q : FloatQT K) (ms : List K) (h : HoldsMinifloats q ms) (hne : ms ≠ []) (eps atol : K)
    (he : TensorSmallEps q eps) (ha : 0 < atol) (hs : 0 < q.scale) (hs1 : q.scale ≤ 1) (hz : q.zeroPoint = 0) (hsg : q.signed = true) :
    ∃ r, q.neg eps atol = some r ∧ r = { q with value := q.value.map fun v => -v } ∧ HoldsMinifloats r (ms.map fun m => -m) ∧
      r.isValid eps atol = some true := by
  obtain ⟨-, h2⟩ := h.exact he ha hs hs1 hne
  obtain ⟨r, hr⟩ : ∃ r : FloatQT K, r = { q with value := q.value.map fun v => -v } := ⟨_, rfl⟩
  have hval : (ms.map fun m => (-m - q.zeroPoint) * q.scale) = q.value.map fun v => -v := by
    rw [h.1, List.map_map]
    apply List.map_congr_left
    intro m _
    simp only [Function.comp, hz]
    ring
  have hold : HoldsMinifloats r (ms.map fun m => -m) := by
    subst hr
    constructor
    · show (q.value.map fun v => -v) = _
      rw [← hval, List.map_map]
      apply List.map_congr_left
      intro m _
      simp only [Function.comp, hz, sub_zero]
    · intro m hm
      obtain ⟨m', hm', rfl⟩ := List.mem_map.mp hm
      exact Rep.neg (h.2 m' hm') hsg
  refine ⟨r, ?_, hr, hold, ?_⟩
  · rw [FloatQT.neg, h2, Option.bind_some, if_pos hsg, hval, hr]
  · exact (hold.exact (eps := eps) (atol := atol) (by rw [hr]; exact he) ha (by rw [hr]; exact hs) (by rw [hr]; exact hs1) (by simpa using hne)).1

/-- C62: the absolute value of a signed tensor with zero point 0 and a scale of at most one holds the absolute minifloats and values in the
unsigned format with the same widths, and is valid. Missing: as for negation. -/
theorem C62_abs_partial (q : FloatQT K) (ms : List K) (h : HoldsMinifloats q ms) (hne : ms ≠ []) (eps atol : K)
    (he : TensorSmallEps q eps) (ha : 0 < atol) (hs : 0 < q.scale) (hs1 : q.scale ≤ 1) (hz : q.zeroPoint = 0) (hsg : q.signed = true) :
    ∃ r, q.abs eps atol = some r ∧ r = { q with value := q.value.map fun v => |v|, signed := false } ∧
      HoldsMinifloats r (ms.map fun m => |m|) ∧ r.isValid eps atol = some true := by
  obtain ⟨-, h2⟩ := h.exact he ha hs hs1 hne
  obtain ⟨r, hr⟩ : ∃ r : FloatQT K, r = { q with value := q.value.map fun v => |v|, signed := false } := ⟨_, rfl⟩
  have hval : (ms.map fun m => (|m| - q.zeroPoint) * q.scale) = q.value.map fun v => |v| := by
    rw [h.1, List.map_map]
    apply List.map_congr_left
    intro m _
    simp only [Function.comp, hz, abs_mul, abs_of_pos hs]
    ring
  have hold : HoldsMinifloats r (ms.map fun m => |m|) := by
    subst hr
    constructor
    · show (q.value.map fun v => |v|) = _
      rw [← hval, List.map_map]
      apply List.map_congr_left
      intro m _
      simp only [Function.comp, hz, sub_zero]
    · intro m hm
      obtain ⟨m', hm', rfl⟩ := List.mem_map.mp hm
      exact Rep.abs (h.2 m' hm')
  refine ⟨r, ?_, hr, hold, ?_⟩
  · rw [FloatQT.abs, if_pos hsg, h2, Option.map_some, hval, hr]
  · exact (hold.exact (eps := eps) (atol := atol) (by rw [hr]; exact he) ha (by rw [hr]; exact hs) (by rw [hr]; exact hs1) (by simpa using hne)).1

/-- C62: the absolute value of an unsigned tensor is the tensor, whatever it holds. -/
theorem C62_abs_unsigned (q : FloatQT K) (hsg : q.signed = false) (eps atol : K) : q.abs eps atol = some q := by
  rw [FloatQT.abs, hsg]; rfl

/-- C62 fails for unsigned tensors: negation always raises. -/
theorem C62_neg_unsigned_raises (q : FloatQT K) (hsg : q.signed = false) (eps atol : K) : q.neg eps atol = none := by
  rw [FloatQT.neg, hsg]
  cases q.minifloat eps atol <;> simp

/-- C62 fails with a non-zero zero point: the value 1 (a minifloat of an E4M3 tensor with scale 1 and zero point 1) is negated to -2. The code
subtracts the zero point although neither `is_valid` nor `minifloat` adds it. -/
theorem C62_zero_point_wrong :
    (({ e4m3Tensor [1] 1 with zeroPoint := 1 } : FloatQT ℚ).neg (2 ^ (-126 : ℤ)) (1/5)).map (fun r => r.value) = some [-2] ∧
    (({ e4m3Tensor [1] 1 with zeroPoint := 1 } : FloatQT ℚ).abs (2 ^ (-126 : ℤ)) (1/5)).map (fun r => r.value) = some [0] := by
  constructor <;> decide +kernel

/-- C62 fails for scales above one: negation and absolute value raise for the tensor of `C61_large_scale_rejected`. -/
theorem C62_large_scale_raises :
    (e4m3Tensor [9/4] 2).neg (2 ^ (-126 : ℤ)) (1/5) = none ∧ (e4m3Tensor [9/4] 2).abs (2 ^ (-126 : ℤ)) (1/5) = none := by
  constructor <;> decide +kernel

example : ((e4m3Tensor [9/16, -7/512] (1/2)).neg (2 ^ (-126 : ℤ)) (1/5)).map (fun r => r.value) = some [-9/16, 7/512] := by decide +kernel
example : ((e4m3Tensor [9/16, -7/512] (1/2)).abs (2 ^ (-126 : ℤ)) (1/5)).map (fun r => (r.value, r.signed)) = some ([9/16, 7/512], false) := by
  decide +kernel

/-! ## C63 -/

/-- Everything a minifloat quant tensor carries besides its values and training flag. -/
def SameFormat (q t : FloatQT K) : Prop :=
  t.scale = q.scale ∧ t.zeroPoint = q.zeroPoint ∧ t.E = q.E ∧ t.M = q.M ∧ t.bias = q.bias ∧ t.signed = q.signed ∧
  t.saturating = q.saturating ∧ t.infValues = q.infValues ∧ t.nanValues = q.nanValues

private theorem sameSet_self (a : List (List Bool)) : sameSet a a = true := by
  simp [sameSet]

private theorem meanOver_const {ts : List (FloatQT K)} (hne : ts ≠ []) (f : FloatQT K → K) (y : K) (h : ∀ t ∈ ts, f t = y) :
    meanOver ts f = y := by
  have e : ts.map f = List.replicate ts.length y := by
    rw [List.eq_replicate_iff]
    refine ⟨by simp, fun x hx => ?_⟩
    obtain ⟨t, ht, rfl⟩ := List.mem_map.mp hx
    exact h t ht
  rw [meanOver, e, List.sum_replicate, nsmul_eq_mul]
  have : (ts.length : K) ≠ 0 := by
    have : ts.length ≠ 0 := by simpa using hne
    exact_mod_cast this
  rw [mul_comm, mul_div_assoc, div_self this, mul_one]

/-- C63: concatenating two or more tensors of one format that has infinity codes, in training mode or not, gives the concatenated values in
order with the same format; if each holds minifloats, the result holds the concatenated minifloats. Missing: formats without infinity codes,
for which concatenation raises (`C63_no_infinity_raises`). -/
theorem C63_cat_partial (q r : FloatQT K) (rest : List (FloatQT K)) (hsame : ∀ t ∈ r :: rest, SameFormat q t) (inf : List (List Bool))
    (hinf : q.infValues = some inf) :
    ∃ out : CatFloatQT K, catFloatQT (q :: r :: rest) = some out ∧
      out.value = ((q :: r :: rest).map fun t => t.value).flatten ∧
      out.scale = q.scale ∧ out.zeroPoint = q.zeroPoint ∧ out.E = (q.E : K) ∧ out.M = (q.M : K) ∧ out.bias = (q.bias : K) ∧
      out.signed = q.signed ∧ out.saturating = q.saturating ∧ out.infValues = q.infValues ∧ out.nanValues = q.nanValues ∧
      (out.training = true ↔ ∃ t ∈ q :: r :: rest, t.training = true) ∧
      ∀ mss : List (List K), List.Forall₂ HoldsMinifloats (q :: r :: rest) mss →
        out.value = (mss.flatten.map fun m => m * out.scale) ∧ ∀ m ∈ mss.flatten, Spec.Representable q.E q.M q.bias q.signed m := by
  have hall : ∀ t ∈ q :: r :: rest, SameFormat q t := by
    intro t ht
    rcases List.mem_cons.mp ht with rfl | ht
    · exact ⟨rfl, rfl, rfl, rfl, rfl, rfl, rfl, rfl, rfl⟩
    · exact hsame t ht
  have hchk : ((r :: rest).all fun qt => q.checks qt) = true := by
    rw [List.all_eq_true]
    intro t ht
    obtain ⟨h1, h2, h3, h4, h5, h6, h7, h8, h9⟩ := hsame t ht
    simp [FloatQT.checks, FloatQT.checkScale, FloatQT.checkZeroPoint, FloatQT.checkBitWidth, FloatQT.checkBias, FloatQT.checkInfNan,
      FloatQT.checkSign, h1, h2, h3, h4, h5, h6, h8, hinf, setsDiffer, sameSet_self, allclose_self]
  have hflat : ∀ mss : List (List K), List.Forall₂ HoldsMinifloats (q :: r :: rest) mss →
      ((q :: r :: rest).map fun t => t.value).flatten = (mss.flatten.map fun m => m * q.scale) ∧
      ∀ m ∈ mss.flatten, Spec.Representable q.E q.M q.bias q.signed m := by
    intro mss hrep
    clear hchk hsame
    revert hrep hall
    generalize (q :: r :: rest) = ts
    intro hall hrep
    induction hrep with
    | nil => exact ⟨rfl, by intro m hm; simp at hm⟩
    | @cons t ms ts mss h1 h2 ih =>
      obtain ⟨e1, e2⟩ := ih fun t ht => hall t (List.mem_cons_of_mem _ ht)
      obtain ⟨a1, a2, a3, a4, a5, a6, -⟩ := hall t (by simp)
      constructor
      · rw [List.map_cons, List.flatten_cons, List.flatten_cons, e1, h1.1, a1, List.map_append]
      · intro m hm
        rw [List.flatten_cons, List.mem_append] at hm
        rcases hm with hm | hm
        · have := h1.2 m hm
          rwa [a3, a4, a5, a6] at this
        · exact e2 m hm
  refine ⟨{ q.toCat with value := ((q :: r :: rest).map fun t => t.value).flatten, training := (q :: r :: rest).any fun t => t.training },
    ?_, rfl, rfl, rfl, rfl, rfl, rfl, rfl, rfl, rfl, rfl, List.any_eq_true, fun mss h => hflat mss h⟩
  rw [catFloatQT]
  · simp only [hchk, if_true]
    by_cases hany : ((q :: r :: rest).any fun t => t.training) = true
    · simp only [hany, if_true]
      rw [meanOver_const (by simp) (fun q => q.scale) q.scale fun t ht => (hall t ht).1,
        meanOver_const (by simp) (fun q => q.zeroPoint) q.zeroPoint fun t ht => (hall t ht).2.1,
        meanOver_const (by simp) (fun q => (q.E : K)) (q.E : K) fun t ht => by rw [(hall t ht).2.2.1],
        meanOver_const (by simp) (fun q => (q.M : K)) (q.M : K) fun t ht => by rw [(hall t ht).2.2.2.1],
        meanOver_const (by simp) (fun q => (q.bias : K)) (q.bias : K) fun t ht => by rw [(hall t ht).2.2.2.2.1]]
      rfl
    · rw [Bool.not_eq_true] at hany
      simp only [hany, Bool.false_eq_true, if_false]
  · simp

/-- C63 fails for every format without infinity codes, in particular for the OCP E4M3 format and for the plain minifloat formats, whose
`inf_values` is `None`: concatenating two or more such tensors always raises. -/
theorem C63_no_infinity_raises (q r : FloatQT K) (rest : List (FloatQT K)) (h : q.infValues = none) : catFloatQT (q :: r :: rest) = none := by
  have : q.checks r = false := by
    have : q.checkInfNan r = false := by rw [FloatQT.checkInfNan, h]; rfl
    rw [FloatQT.checks, this]
    simp
  rw [catFloatQT]
  · rw [if_neg (by rw [List.all_cons, this]; simp)]
  · simp

private theorem allclose_nat_ne {a b : ℕ} (h : a ≠ b) (hb : b < 99000) : allclose (a : K) (b : K) = false := by
  simp only [allclose, decide_eq_false_iff_not, not_le]
  have h1 : (1 : K) ≤ |(a : K) - b| := by
    have : (1 : ℤ) ≤ |(a : ℤ) - b| := Int.one_le_abs (by omega)
    exact_mod_cast this
  have h2 : (b : K) < 99000 := by exact_mod_cast hb
  have h3 : (0 : K) ≤ b := Nat.cast_nonneg _
  rw [abs_of_nonneg h3]
  refine lt_of_lt_of_le ?_ h1
  have : (1 : K) / 10 ^ 8 + 1 / 10 ^ 5 * 99000 < 1 := by norm_num
  have : (1 : K) / 10 ^ 5 * b ≤ 1 / 10 ^ 5 * 99000 := mul_le_mul_of_nonneg_left h2.le (by norm_num)
  linarith

private theorem allclose_int_ne {a b : ℤ} (h : a ≠ b) (hb : |b| < 99000) : allclose (a : K) (b : K) = false := by
  simp only [allclose, decide_eq_false_iff_not, not_le]
  have h1 : (1 : K) ≤ |(a : K) - b| := by
    have : (1 : ℤ) ≤ |a - b| := Int.one_le_abs (by omega)
    exact_mod_cast this
  have h2 : |(b : K)| < 99000 := by exact_mod_cast hb
  refine lt_of_lt_of_le ?_ h1
  have : (1 : K) / 10 ^ 8 + 1 / 10 ^ 5 * 99000 < 1 := by norm_num
  have : (1 : K) / 10 ^ 5 * |(b : K)| ≤ 1 / 10 ^ 5 * 99000 := mul_le_mul_of_nonneg_left h2.le (by norm_num)
  linarith

/-- C63: operands that differ in sign, in exponent bias, in both widths, in both lists of special codes or (outside training mode) in scale or
zero point beyond the tolerance are rejected. Missing: a difference in one width only or in one list of special codes only, and in the
saturation flag, which are accepted (`C63_mantissa_mismatch_accepted`, `C63_nan_codes_mismatch_accepted`). -/
theorem C63_mismatch_rejected_partial (q r : FloatQT K) (rest : List (FloatQT K)) (t : FloatQT K) (ht : t ∈ r :: rest)
    (hm : t.signed ≠ q.signed ∨ (t.bias ≠ q.bias ∧ |t.bias| < 99000) ∨
      (t.E ≠ q.E ∧ t.M ≠ q.M ∧ t.E < 99000 ∧ t.M < 99000) ∨
      (∃ a b c d, q.infValues = some a ∧ t.infValues = some b ∧ q.nanValues = some c ∧ t.nanValues = some d ∧
        ¬ (∀ x, x ∈ a ↔ x ∈ b) ∧ ¬ (∀ x, x ∈ c ↔ x ∈ d)) ∨
      (q.training = false ∧ 1 / 10 ^ 8 + 1 / 10 ^ 5 * |t.scale| < |q.scale - t.scale|) ∨
      (q.training = false ∧ 1 / 10 ^ 8 + 1 / 10 ^ 5 * |t.zeroPoint| < |q.zeroPoint - t.zeroPoint|)) :
    catFloatQT (q :: r :: rest) = none := by
  have hset : ∀ a b : List (List Bool), ¬ (∀ x, x ∈ a ↔ x ∈ b) → sameSet a b = false := by
    intro a b h
    rw [← Bool.not_eq_true]
    intro h'
    apply h
    simp only [sameSet, Bool.and_eq_true, List.all_eq_true, List.contains_iff_mem] at h'
    exact fun x => ⟨h'.1 x, h'.2 x⟩
  have hfail : q.checks t = false := by
    rcases hm with h | ⟨h, hlt⟩ | ⟨h, h', hE, hM⟩ | ⟨a, b, c, d, ha, hb, hc, hd, h, h'⟩ | ⟨h, h'⟩ | ⟨h, h'⟩
    · have : q.checkSign t = false := by simp only [FloatQT.checkSign]; simpa using fun e : q.signed = t.signed => h e.symm
      simp [FloatQT.checks, this]
    · have : q.checkBias t = false := allclose_int_ne h.symm hlt
      simp [FloatQT.checks, this]
    · have : q.checkBitWidth t = false := by
        rw [FloatQT.checkBitWidth, allclose_nat_ne h.symm hE, allclose_nat_ne h'.symm hM]; rfl
      simp [FloatQT.checks, this]
    · have : q.checkInfNan t = false := by
        simp [FloatQT.checkInfNan, ha, hb, hc, hd, setsDiffer, hset a b h, hset c d h']
      simp [FloatQT.checks, this]
    · have : q.checkScale t = false := by
        simp only [FloatQT.checkScale, h, Bool.false_or, allclose]; simpa using h'
      simp [FloatQT.checks, this]
    · have : q.checkZeroPoint t = false := by
        simp only [FloatQT.checkZeroPoint, h, Bool.false_or, allclose]; simpa using h'
      simp [FloatQT.checks, this]
  rw [catFloatQT]
  · rw [if_neg]
    rw [List.all_eq_true]
    intro h
    rw [h t ht] at hfail
    exact absurd hfail (by simp)
  · simp

/-- An E5M2-like tensor with `M` mantissa bits, OCP special codes for infinity and the given NaN codes. -/
def e5Tensor (M : ℕ) (nan : List (List Bool)) (value : List ℚ) : FloatQT ℚ :=
  ⟨value, 1, 0, 5, M, 15, true, some [[false, false]], some nan, true, false⟩

/-- C63 fails for operands that differ in one width only: an E5M2 tensor and an E5M3 tensor are concatenated, and the result declares two mantissa
bits although it holds 9/8, which has no code in E5M2. -/
theorem C63_mantissa_mismatch_accepted :
    (catFloatQT [e5Tensor 2 [[true, true]] [1], e5Tensor 3 [[true, true]] [9/8]]).map (fun r => (r.value, r.E, r.M)) = some ([1, 9/8], 5, 2) ∧
    HoldsMinifloats (e5Tensor 3 [[true, true]] [9/8]) [9/8] ∧
    ¬ Spec.Representable 5 2 15 true (9/8 : ℚ) := by
  refine ⟨by decide +kernel, ⟨by norm_num [e5Tensor], ?_⟩, ?_⟩
  · intro m hm
    rw [List.mem_singleton] at hm
    subst hm
    exact ⟨15, 1, by decide, by decide, Or.inl (by norm_num [Spec.floatValue, e5Tensor])⟩
  · intro h
    have h1 := eps_fix torchRound_faithful 2 (1 - 15 - 2) (eps := (2 ^ (-126 : ℤ) : ℚ)) (by norm_num) (by norm_num) (Rep.onG h)
    rw [qAt] at h1
    have : (2 : ℚ) ^ internalExponent 2 (1 - 15 - 2) (2 ^ (-126 : ℤ)) (9/8 : ℚ) *
        ((torchRound ((9/8 : ℚ) / 2 ^ internalExponent 2 (1 - 15 - 2) (2 ^ (-126 : ℤ)) (9/8 : ℚ)) : ℤ) : ℚ) ≠ 9/8 := by decide +kernel
    exact this h1

/-- C63 fails for operands whose NaN codes (or infinity codes) alone differ, and for different saturation flags: the result carries those of
the first operand. -/
theorem C63_nan_codes_mismatch_accepted :
    (catFloatQT [e5Tensor 2 [[true, true]] [1], { e5Tensor 2 [[false, true]] [2] with saturating := false }]).map
      (fun r => (r.value, r.nanValues, r.saturating)) = some ([1, 2], some [[true, true]], true) := by decide +kernel

example : (catFloatQT [e5Tensor 2 [[true, true]] [1], { e5Tensor 2 [[true, true]] [3] with training := true }]).map
    (fun r => (r.value, r.E, r.M, r.bias, r.training)) = some ([1, 3], 5, 2, 15, true) := by decide +kernel
example : ∀ t ∈ [{ e5Tensor 2 [[true, true]] [3] with training := true }], SameFormat (e5Tensor 2 [[true, true]] [1]) t := by
  intro t ht
  rw [List.mem_singleton] at ht
  subst ht
  exact ⟨rfl, rfl, rfl, rfl, rfl, rfl, rfl, rfl, rfl⟩
example : catFloatQT [e4m3Tensor [1] 1, e4m3Tensor [2] 1] = none := C63_no_infinity_raises _ _ _ rfl
example : catFloatQT [e5Tensor 2 [[true, true]] [1], { e5Tensor 2 [[true, true]] [1] with bias := 14 }] = none :=
  C63_mismatch_rejected_partial _ _ _ _ (List.mem_singleton.mpr rfl) (Or.inr (Or.inl (by norm_num [e5Tensor])))

end Brevitas.Props
