import Verif.Lemmas.QuantTensor
import Verif.Model.IntQuant

/-!
# C28 - C32: integer quant tensors
-/

set_option linter.unusedSectionVars false

namespace Brevitas.Props

open Brevitas

variable {K : Type*} [Field K] [LinearOrder K] [IsStrictOrderedRing K] [FloorRing K]

/-- The quant tensor is an exact quant tensor with integer codes `ns`: its values are `(n - zero_point) * scale` and the codes belong
to the declared container. -/
def Represents (q : IntQT K) (ns : List ℤ) : Prop :=
  q.value = Spec.denote q.scale q.zeroPoint ns ∧ Spec.AllCodes q.signed q.bitWidth ns

/-! ## C28 -/

/-- C28: an exact quant tensor of two or more bits is valid, `int()` returns its codes, and the codes reproduce the value.
Missing: one-bit tensors, for which it fails (`C28_constant_binary_rejected`, `C28_binary_accepts_any_two_values`), and the 32-bit data type
(`C28_uint32_overflows`). -/
theorem C28_round_trip_partial (q : IntQT K) (hb : 2 ≤ q.bitWidth) (hs : q.scale ≠ 0) (atol : K) (ha : 0 < atol) (ns : List ℤ) (hne : ns ≠ [])
    (h : Represents q ns) :
    q.isValid atol = some true ∧ q.int atol = some ns ∧
    ∀ ms, q.int atol = some ms → Spec.AllCodes q.signed q.bitWidth ms ∧ Spec.denote q.scale q.zeroPoint ms = q.value := by
  have hi := int_denote q hb hs ha ns hne h.1 h.2
  refine ⟨isValid_denote q hb hs ha ns hne h.1 h.2, hi, ?_⟩
  intro ms hm
  rw [hi] at hm
  obtain rfl := Option.some.inj hm
  exact ⟨h.2, h.1.symm⟩

/-- C28: `is_valid` accepts (two bits and more) exactly the non-empty tensors all of whose values are within the tolerance (in units
of the scale) of a code of the container. Missing: one bit (see `C28_binary_is_valid_iff`). -/
theorem C28_is_valid_iff_partial (q : IntQT K) (hb : 2 ≤ q.bitWidth) (atol : K) (h2 : atol ≤ 1 / 2) :
    q.isValid atol = some true ↔ q.value ≠ [] ∧
      ∀ v ∈ q.value, ∃ n : ℤ, Spec.IsCode q.signed false q.bitWidth n ∧ |v / q.scale + q.zeroPoint - n| < atol := by
  rw [isValid_iff_rounded q hb]
  apply and_congr_right
  intro _
  rw [IntQT.preRound]
  constructor
  · intro h v hv
    have := h _ (List.mem_map_of_mem hv)
    exact ⟨_, this.2, this.1⟩
  · intro h y hy
    obtain ⟨v, hv, rfl⟩ := List.mem_map.mp hy
    obtain ⟨n, hn, hd⟩ := h v hv
    rw [torchRound_of_near (hd.trans_le h2)]
    exact ⟨hd, hn⟩

/-- C28: when `int()` succeeds the integers are codes of the container, one per element, and de-quantising them is off by less than
the tolerance times the scale. -/
theorem C28_int_close (q : IntQT K) (hb : 2 ≤ q.bitWidth) (hs : 0 < q.scale) (atol : K) (ms : List ℤ) (hm : q.int atol = some ms) :
    Spec.AllCodes q.signed q.bitWidth ms ∧ ms.length = q.value.length ∧
    List.Forall₂ (fun v w => |v - w| < atol * q.scale) q.value (Spec.denote q.scale q.zeroPoint ms) := by
  have hv : q.isValid atol = some true := by
    unfold IntQT.int at hm
    cases h : q.isValid atol with
    | none => rw [h] at hm; simp at hm
    | some b => cases b with
      | true => rfl
      | false => rw [h] at hm; simp at hm
  have hms : ms = q.rounded := by
    rw [IntQT.int, hv] at hm; exact (Option.some.inj hm).symm
  obtain ⟨-, hall⟩ := (isValid_iff_rounded q hb atol).mp hv
  subst hms
  refine ⟨?_, by simp [IntQT.rounded, IntQT.preRound], ?_⟩
  · intro n hn
    obtain ⟨y, hy, rfl⟩ := List.mem_map.mp hn
    exact (hall y hy).2
  · rw [Spec.denote, IntQT.rounded, IntQT.preRound, List.map_map, List.map_map, List.forall₂_map_right_iff, List.forall₂_same]
    intro v hv
    simp only [Function.comp]
    have h1 := (hall _ (List.mem_map_of_mem hv)).1
    have e : v - (((torchRound (v / q.scale + q.zeroPoint) : ℤ) : K) - q.zeroPoint) * q.scale =
        (v / q.scale + q.zeroPoint - (torchRound (v / q.scale + q.zeroPoint) : ℤ)) * q.scale := by
      field_simp; ring
    rw [e, abs_mul, abs_of_pos hs]
    exact mul_lt_mul_of_pos_right h1 hs

/-- C28: tensors produced by the integer quantiser (two or more bits, positive scale, integer zero point) are valid and round-trip,
for every input tensor. -/
theorem C28_quantizer_output (c : IntQuantCfg K) (hn : c.narrow = false) (scale zeroPoint : K) (hs : scale ≠ 0) (b : ℕ) (hb : 2 ≤ b)
    (xs : List K) (hne : xs ≠ []) (tr : Bool) (atol : K) (ha : 0 < atol) :
    let q : IntQT K := ⟨xs.map (c.forward scale zeroPoint b), scale, zeroPoint, b, c.signed, tr⟩
    q.isValid atol = some true ∧ ∃ ns, q.int atol = some ns ∧ ns.map (fun n : ℤ => (n : K)) = xs.map (c.toInt scale zeroPoint b) := by
  intro q
  set ns : List ℤ := xs.map fun x => code c.signed c.narrow b (c.floatToInt (x / scale + zeroPoint)) with hns
  have hv : q.value = Spec.denote q.scale q.zeroPoint ns := by
    simp only [q, Spec.denote, hns, List.map_map]
    apply List.map_congr_left
    intro x _
    simp only [Function.comp, IntQuantCfg.forward, toInt_eq_code c scale zeroPoint (by omega : 1 ≤ b)]
  have hc : Spec.AllCodes q.signed q.bitWidth ns := by
    intro n hn'
    obtain ⟨x, -, rfl⟩ := List.mem_map.mp hn'
    have := code_isCode c.signed c.narrow (by omega : 1 ≤ b) (c.floatToInt (x / scale + zeroPoint))
    rw [hn] at this ⊢; exact this
  have hne' : ns ≠ [] := by simpa [hns] using hne
  obtain ⟨h1, h2, -⟩ := C28_round_trip_partial q hb hs atol ha ns hne' ⟨hv, hc⟩
  refine ⟨h1, ns, h2, ?_⟩
  rw [hns, List.map_map]
  apply List.map_congr_left
  intro x _
  simp only [Function.comp, toInt_eq_code c scale zeroPoint (by omega : 1 ≤ b)]

/-- C28: the integers of a valid tensor fit the data type that `int()` converts them to, up to 32 bits signed and 31 bits unsigned. -/
theorem C28_int_fits_dtype (q : IntQT K) (hb : 2 ≤ q.bitWidth) (hw : q.bitWidth ≤ if q.signed then 32 else 31) (atol : K)
    (ms : List ℤ) (hm : q.int atol = some ms) (hs : 0 < q.scale) : ∀ n ∈ ms, q.intDtype.min ≤ n ∧ n ≤ q.intDtype.max := by
  obtain ⟨h, -, -⟩ := C28_int_close q hb hs atol ms hm
  intro n hn
  obtain ⟨h1, h2⟩ := h n hn
  cases hsg : q.signed with
  | true =>
    rw [hsg] at h1 h2 hw
    simp only [Spec.lo, Spec.hi, if_true, Bool.false_eq_true, if_false] at h1 h2 hw
    by_cases h8 : q.bitWidth ≤ 8
    · have : (2 : ℤ) ^ (q.bitWidth - 1) ≤ 2 ^ 7 := pow_le_pow_right₀ (by norm_num) (by omega)
      simp only [IntQT.intDtype, hsg, h8, decide_true, Bool.and_self, if_true, IntDtype.min, IntDtype.max]
      omega
    · have : (2 : ℤ) ^ (q.bitWidth - 1) ≤ 2 ^ 31 := pow_le_pow_right₀ (by norm_num) (by omega)
      simp only [IntQT.intDtype, hsg, h8, decide_false, Bool.false_and, Bool.false_eq_true, if_false, IntDtype.min, IntDtype.max]
      omega
  | false =>
    rw [hsg] at h1 h2 hw
    simp only [Spec.lo, Spec.hi, Bool.false_eq_true, if_false] at h1 h2 hw
    by_cases h8 : q.bitWidth ≤ 8
    · have : (2 : ℤ) ^ q.bitWidth ≤ 2 ^ 8 := pow_le_pow_right₀ (by norm_num) (by omega)
      simp [IntQT.intDtype, hsg, h8, IntDtype.min, IntDtype.max]
      omega
    · have : (2 : ℤ) ^ q.bitWidth ≤ 2 ^ 31 := pow_le_pow_right₀ (by norm_num) (by omega)
      simp [IntQT.intDtype, hsg, h8, IntDtype.min, IntDtype.max]
      omega

/-- C28 fails for unsigned 32-bit tensors: the code `2^31` is a code of the container, the tensor is valid, but the integer does not
fit the `int32` that `int()` returns. -/
theorem C28_uint32_overflows : let q : IntQT ℚ := ⟨[2147483648], 1, 0, 32, false, false⟩
    q.isValid (1/5) = some true ∧ q.int (1/5) = some [2147483648] ∧ q.intDtype.max < 2147483648 := by decide +kernel

/-- C28 fails for one bit: a binary tensor all of whose elements have the same sign is declared invalid, so `int()` raises. -/
theorem C28_constant_binary_rejected : let q : IntQT ℚ := ⟨[1, 1, 1], 1, 0, 1, true, false⟩
    q.isValid (1/5) = some false ∧ q.int (1/5) = none := by decide +kernel

/-- C28 fails for one bit in the other direction too: any two integers of which one is negative pass as signed binary. -/
theorem C28_binary_accepts_any_two_values : let q : IntQT ℚ := ⟨[-5, 7], 1, 0, 1, true, false⟩
    q.isValid (1/5) = some true ∧ q.int (1/5) = some [-5, 7] := by decide +kernel

/-- C28: what a one-bit tensor needs to be accepted: exactly two distinct integers, with a negative one iff it is signed. -/
theorem C28_binary_is_valid_iff (q : IntQT K) (hb : q.bitWidth < 2) (hs : q.scale ≠ 0) (atol : K) (ha : 0 < atol) (ns : List ℤ)
    (h : q.value = Spec.denote q.scale q.zeroPoint ns) :
    q.isValid atol = some true ↔ ns ≠ [] ∧ ns.dedup.length = 2 ∧ ((∃ n ∈ ns, n < 0) ↔ q.signed = true) := by
  have hr := rounded_denote q hs ns h
  have hp := preRound_denote q hs ns h
  unfold IntQT.isValid
  by_cases h0 : ns = []
  · subst h0; rw [h]; simp [Spec.denote]
  · have hv : q.value ≠ [] := by rw [h]; simpa [Spec.denote] using h0
    rw [if_neg hv]
    have hi : (q.preRound.all fun y => decide (|y - (torchRound y : ℤ)| < atol)) = true := by
      rw [hp, List.all_eq_true]
      intro y hy
      obtain ⟨n, -, rfl⟩ := List.mem_map.mp hy
      rw [torchRound_faithful.int]; simpa using ha
    simp only [if_neg (by omega : ¬ 2 ≤ q.bitWidth), hr, hi, Option.some.injEq, Bool.true_and, Bool.and_eq_true, beq_iff_eq, h0,
      ne_eq, not_false_eq_true, true_and]
    apply and_congr_right
    intro _
    have : (ns.dedup.any fun n => decide (n < 0)) = true ↔ ∃ n ∈ ns, n < 0 := by
      simp [List.any_eq_true]
    rw [← this]
    cases (ns.dedup.any fun n => decide (n < 0)) <;> cases q.signed <;> simp

example : Represents (⟨[(3 - 1) * (1/2), (-8 - 1) * (1/2)], 1/2, 1, 4, true, false⟩ : IntQT ℚ) [3, -8] :=
  ⟨by decide +kernel, by unfold Spec.AllCodes Spec.IsCode; decide⟩

/-! ## C29 -/

/-- C29: adding exact quant tensors with the same scale adds the integers, whatever the zero points: the value of the sum is the sum
of the values and it is denoted by the sum of the codes with the declared scale and zero point. -/
theorem C29_exact (q r : IntQT K) (ns ms : List ℤ) (hq : Represents q ns) (hr : Represents r ms) (hsc : q.scale = r.scale)
    (hlen : ns.length = ms.length) :
    ∃ o, q.add r = some o ∧ o.value = List.zipWith (· + ·) q.value r.value ∧ o.scale = q.scale ∧
      o.value = Spec.denote o.scale o.zeroPoint (List.zipWith (· + ·) ns ms) ∧
      o.signed = (q.signed || r.signed) := by
  have hcs : q.checkScale r = true := by rw [IntQT.checkScale, hsc, allclose_self]; simp
  have hl : (q.value.length == r.value.length) = true := by
    rw [hq.1, hr.1]; simp [Spec.denote, hlen]
  refine ⟨_, by rw [IntQT.add, hcs, hl]; rfl, rfl, ?_, ?_, rfl⟩
  · change (q.scale + r.scale) / 2 = q.scale
    rw [← hsc]; ring
  · change List.zipWith (· + ·) q.value r.value = Spec.denote ((q.scale + r.scale) / 2) (q.zeroPoint + r.zeroPoint) _
    have e : (q.scale + r.scale) / 2 = q.scale := by rw [← hsc]; ring
    rw [e, hq.1, hr.1, ← hsc, zipWith_denote_add]

/-- C29: the declared bit width of a sum, for operands of two or more bits, is one more than the wider operand. -/
theorem C29_declared_bit_width (s₁ s₂ : Bool) (b₁ b₂ : ℕ) (h₁ : 2 ≤ b₁) (h₂ : 2 ≤ b₂) :
    addBitWidth s₁ s₂ b₁ b₂ = max b₁ b₂ + 1 := addBitWidth_eq s₁ s₂ h₁ h₂

private theorem pow_split {b : ℕ} (h : 1 ≤ b) : (2 : ℤ) ^ b = 2 * 2 ^ (b - 1) := by rw [← pow_succ']; congr 1; omega

/-- C29: exactly when the declared bit width can hold every sum (operands of two or more bits): the operands have the same sign, or
the signed operand is strictly wider than the unsigned one. -/
theorem C29_enough_bits_iff (s₁ s₂ : Bool) (b₁ b₂ : ℕ) (h₁ : 2 ≤ b₁) (h₂ : 2 ≤ b₂) :
    (∀ n m, Spec.IsCode s₁ false b₁ n → Spec.IsCode s₂ false b₂ m →
      Spec.IsCode (s₁ || s₂) false (addBitWidth s₁ s₂ b₁ b₂) (n + m)) ↔
    (s₁ = s₂ ∨ (s₁ = true ∧ b₂ < b₁) ∨ (s₂ = true ∧ b₁ < b₂)) := by
  rw [addBitWidth_eq s₁ s₂ h₁ h₂]
  have p₁ := pow_split (b := b₁) (by omega)
  have p₂ := pow_split (b := b₂) (by omega)
  have g₁ : (2 : ℤ) ≤ 2 ^ (b₁ - 1) := by
    calc (2 : ℤ) = 2 ^ 1 := by norm_num
      _ ≤ 2 ^ (b₁ - 1) := pow_le_pow_right₀ (by norm_num) (by omega)
  have g₂ : (2 : ℤ) ≤ 2 ^ (b₂ - 1) := by
    calc (2 : ℤ) = 2 ^ 1 := by norm_num
      _ ≤ 2 ^ (b₂ - 1) := pow_le_pow_right₀ (by norm_num) (by omega)
  have hm1 : (2 : ℤ) ^ b₁ ≤ 2 ^ max b₁ b₂ := pow_le_pow_right₀ (by norm_num) (le_max_left _ _)
  have hm2 : (2 : ℤ) ^ b₂ ≤ 2 ^ max b₁ b₂ := pow_le_pow_right₀ (by norm_num) (le_max_right _ _)
  have hM : (2 : ℤ) ^ (max b₁ b₂ + 1) = 2 * 2 ^ max b₁ b₂ := by rw [pow_succ']
  have hM1 : max b₁ b₂ + 1 - 1 = max b₁ b₂ := by omega
  cases s₁ <;> cases s₂ <;>
    simp only [Spec.IsCode, Spec.lo, Spec.hi, Bool.or_self, Bool.or_true, Bool.true_or, Bool.or_false, Bool.false_or, if_true, if_false,
      Bool.false_eq_true, Bool.true_eq_false, hM1, hM, true_or, iff_true, reduceCtorEq, false_and, true_and, false_or, or_false, and_imp]
  · intro n m a b c d; omega
  · -- unsigned + signed
    constructor
    · intro h
      by_contra hc
      have hle : b₂ ≤ b₁ := not_lt.mp hc
      have := (h (2 ^ b₁ - 1) (2 ^ (b₂ - 1) - 1) (by omega) (by omega) (by omega) (by omega)).2
      rw [max_eq_left hle] at this
      omega
    · intro h n m a b c d
      have h' : (2 : ℤ) ^ b₁ ≤ 2 ^ (b₂ - 1) := pow_le_pow_right₀ (by norm_num) (by omega)
      omega
  · constructor
    · intro h
      by_contra hc
      have hle : b₁ ≤ b₂ := not_lt.mp hc
      have := (h (2 ^ (b₁ - 1) - 1) (2 ^ b₂ - 1) (by omega) (by omega) (by omega) (by omega)).2
      rw [max_eq_right hle] at this
      omega
    · intro h n m a b c d
      have h' : (2 : ℤ) ^ b₂ ≤ 2 ^ (b₁ - 1) := pow_le_pow_right₀ (by norm_num) (by omega)
      omega
  · intro n m a b c d; omega

/-- C29, validity of the sum, when the signs agree or the signed operand is the wider one. Missing: the other sign combinations and
one-bit operands, for which the declared width is too small (`C29_mixed_sign_overflows`, `C29_one_bit_overflows`). -/
theorem C29_valid_partial (q r : IntQT K) (ns ms : List ℤ) (hq : Represents q ns) (hr : Represents r ms) (hsc : q.scale = r.scale)
    (hs : q.scale ≠ 0) (hlen : ns.length = ms.length) (hne : ns ≠ []) (hb₁ : 2 ≤ q.bitWidth) (hb₂ : 2 ≤ r.bitWidth)
    (hsign : q.signed = r.signed ∨ (q.signed = true ∧ r.bitWidth < q.bitWidth) ∨ (r.signed = true ∧ q.bitWidth < r.bitWidth))
    (atol : K) (ha : 0 < atol) :
    ∃ o, q.add r = some o ∧ Represents o (List.zipWith (· + ·) ns ms) ∧ o.isValid atol = some true := by
  obtain ⟨o, ho, hv, hos, hd, -⟩ := C29_exact q r ns ms hq hr hsc hlen
  have hbw : o.bitWidth = addBitWidth q.signed r.signed q.bitWidth r.bitWidth ∧ o.signed = (q.signed || r.signed) := by
    unfold IntQT.add at ho
    split_ifs at ho with h
    rw [← Option.some.inj ho]; exact ⟨rfl, rfl⟩
  have hc : Spec.AllCodes o.signed o.bitWidth (List.zipWith (· + ·) ns ms) := by
    intro k hk
    obtain ⟨n, hn, m, hm, rfl⟩ := mem_zipWith_of hk
    rw [hbw.1, hbw.2]
    exact (C29_enough_bits_iff _ _ _ _ hb₁ hb₂).mpr hsign n m (hq.2 n hn) (hr.2 m hm)
  refine ⟨o, ho, ⟨hd, hc⟩, isValid_denote o ?_ (by rw [hos]; exact hs) ha _ ?_ hd hc⟩
  · rw [hbw.1, addBitWidth_eq _ _ hb₁ hb₂]; omega
  · cases ns with
    | nil => exact absurd rfl hne
    | cons n ns => cases ms with
      | nil => simp at hlen
      | cons m ms => simp

/-- C29 fails for mixed signs: int8 + uint8 declares 9 signed bits, while 127 + 255 = 382 needs 10; the sum is not valid. -/
theorem C29_mixed_sign_overflows :
    let q : IntQT ℚ := ⟨[127], 1, 0, 8, true, false⟩
    let r : IntQT ℚ := ⟨[255], 1, 0, 8, false, false⟩
    Represents q [127] ∧ Represents r [255] ∧
    q.add r = some ⟨[382], 1, 0, 9, true, false⟩ ∧ (⟨[382], 1, 0, 9, true, false⟩ : IntQT ℚ).isValid (1/5) = some false := by
  refine ⟨⟨by decide +kernel, by unfold Spec.AllCodes Spec.IsCode; decide⟩,
    ⟨by decide +kernel, by unfold Spec.AllCodes Spec.IsCode; decide⟩, by decide +kernel, by decide +kernel⟩

/-- C29 fails for one-bit operands: the sum of two unsigned one-bit tensors is declared one bit wide although it can be 2. -/
theorem C29_one_bit_overflows : addBitWidth false false 1 1 = 1 ∧ Spec.IsCode false false 1 1 ∧ ¬ Spec.IsCode false false 1 (1 + 1) := by
  unfold Spec.IsCode; decide +kernel

/-- C29: at inference, operands whose scales differ by more than the tolerance of `torch.allclose` are rejected. -/
theorem C29_different_scales_rejected (q r : IntQT K) (ht : q.training = false)
    (hd : 1 / 10 ^ 8 + 1 / 10 ^ 5 * |r.scale| < |q.scale - r.scale|) : q.add r = none := by
  have : q.checkScale r = false := by
    simp only [IntQT.checkScale, ht, Bool.false_or, allclose]
    simpa using hd
  simp [IntQT.add, this]

/-- C29 fails for scales that are close but not equal: the averaged scale does not denote the sum of the integers. (22-bit code of a
tensor with scale `1.000005` added to a zero of a tensor with scale `1`: `int()` of the sum is off by ten.) -/
theorem C29_close_scales_not_exact :
    let q : IntQT ℚ := ⟨[0], 1, 0, 24, true, false⟩
    let r : IntQT ℚ := ⟨[4000020], 1 + 1/200000, 0, 24, true, false⟩
    r.int (1/5) = some [4000000] ∧ q.int (1/5) = some [0] ∧
    ∃ o, q.add r = some o ∧ o.int (1/5) = some [4000010] := by
  exact ⟨by decide +kernel, by decide +kernel, ⟨[4000020], 1 + 1/400000, 0, 25, true, false⟩, by decide +kernel, by decide +kernel⟩

/-- C29: adding a scalar float moves the zero point and keeps the integers. -/
theorem C29_add_scalar (q : IntQT K) (hs : q.scale ≠ 0) (ns : List ℤ) (hq : Represents q ns) (c : K) :
    Represents (q.addScalar c) ns ∧ (q.addScalar c).value = q.value.map (· + c) := by
  refine ⟨⟨?_, hq.2⟩, rfl⟩
  change q.value.map (· + c) = Spec.denote q.scale (q.zeroPoint - c / q.scale) ns
  rw [hq.1, Spec.denote, Spec.denote, List.map_map]
  apply List.map_congr_left
  intro n _
  simp only [Function.comp]
  field_simp
  ring

example : (⟨[3, -4], 1/2, 2, 4, true, false⟩ : IntQT ℚ).add ⟨[1/2, 1], 1/2, 1, 3, true, false⟩ =
    some ⟨[7/2, -3], 1/2, 3, 5, true, false⟩ := by decide +kernel

/-! ## C30 -/

/-- C30: the product of two codes fits the sum of the bit widths, for every combination of signs. -/
theorem C30_enough_bits (s₁ s₂ : Bool) (b₁ b₂ : ℕ) (h₁ : 1 ≤ b₁) (h₂ : 1 ≤ b₂) (n m : ℤ) (hn : Spec.IsCode s₁ false b₁ n)
    (hm : Spec.IsCode s₂ false b₂ m) : Spec.IsCode (s₁ || s₂) false (b₁ + b₂) (n * m) := by
  have p₁ := pow_split h₁
  have p₂ := pow_split h₂
  have q₁ : (1 : ℤ) ≤ 2 ^ (b₁ - 1) := one_le_pow₀ (by norm_num)
  have q₂ : (1 : ℤ) ≤ 2 ^ (b₂ - 1) := one_le_pow₀ (by norm_num)
  have hM : (2 : ℤ) ^ (b₁ + b₂) = 2 * (2 * (2 ^ (b₁ - 1) * 2 ^ (b₂ - 1))) := by rw [pow_add, p₁, p₂]; ring
  have hM1 : (2 : ℤ) ^ (b₁ + b₂ - 1) = 2 * (2 ^ (b₁ - 1) * 2 ^ (b₂ - 1)) := by
    have := pow_split (b := b₁ + b₂) (by omega)
    omega
  obtain ⟨a, b⟩ := hn
  obtain ⟨c, d⟩ := hm
  cases s₁ <;> cases s₂ <;>
    simp only [Spec.IsCode, Spec.lo, Spec.hi, Bool.or_self, Bool.or_true, Bool.true_or, Bool.or_false, if_true, if_false,
      Bool.false_eq_true, hM, hM1, p₁, p₂] at a b c d ⊢ <;>
    generalize (2 : ℤ) ^ (b₁ - 1) = A at * <;> generalize (2 : ℤ) ^ (b₂ - 1) = B at *
  · constructor
    · exact mul_nonneg a c
    · nlinarith [mul_nonneg a c, mul_nonneg (by linarith : (0 : ℤ) ≤ 2 * A - 1 - n) c,
        mul_nonneg (by linarith : (0 : ℤ) ≤ 2 * A - 1) (by linarith : (0 : ℤ) ≤ 2 * B - 1 - m)]
  · constructor
    · nlinarith [mul_nonneg a (by linarith : (0 : ℤ) ≤ m + B), mul_nonneg (by linarith : (0 : ℤ) ≤ 2 * A - 1 - n) (by linarith : (0 : ℤ) ≤ B)]
    · nlinarith [mul_nonneg a (by linarith : (0 : ℤ) ≤ B - 1 - m), mul_nonneg (by linarith : (0 : ℤ) ≤ 2 * A - 1 - n) (by linarith : (0 : ℤ) ≤ B - 1)]
  · constructor
    · nlinarith [mul_nonneg c (by linarith : (0 : ℤ) ≤ n + A), mul_nonneg (by linarith : (0 : ℤ) ≤ 2 * B - 1 - m) (by linarith : (0 : ℤ) ≤ A)]
    · nlinarith [mul_nonneg c (by linarith : (0 : ℤ) ≤ A - 1 - n), mul_nonneg (by linarith : (0 : ℤ) ≤ 2 * B - 1 - m) (by linarith : (0 : ℤ) ≤ A - 1)]
  · have hAB : 1 ≤ A * B := by nlinarith
    have hn : |n| ≤ A := abs_le.mpr ⟨by linarith, by linarith⟩
    have hm : |m| ≤ B := abs_le.mpr ⟨by linarith, by linarith⟩
    have h := mul_le_mul hn hm (abs_nonneg m) (by linarith)
    rw [← abs_mul] at h
    obtain ⟨h1, h2⟩ := abs_le.mp h
    constructor <;> linarith

/-- C30: multiplying exact zero-point-free quant tensors multiplies integers, scales and values; the result is an exact quant tensor,
and valid. -/
theorem C30_exact_and_valid (q r : IntQT K) (ns ms : List ℤ) (hq : Represents q ns) (hr : Represents r ms) (hz₁ : q.zeroPoint = 0)
    (hz₂ : r.zeroPoint = 0) (hs₁ : q.scale ≠ 0) (hs₂ : r.scale ≠ 0) (hlen : ns.length = ms.length) (hne : ns ≠ [])
    (hb₁ : 1 ≤ q.bitWidth) (hb₂ : 1 ≤ r.bitWidth) (atol : K) (ha : 0 < atol) :
    ∃ o, q.mul r = some o ∧ o.value = List.zipWith (· * ·) q.value r.value ∧ o.scale = q.scale * r.scale ∧ o.zeroPoint = 0 ∧
      Represents o (List.zipWith (· * ·) ns ms) ∧ o.isValid atol = some true ∧ o.int atol = some (List.zipWith (· * ·) ns ms) := by
  have hl : q.value.length = r.value.length := by rw [hq.1, hr.1]; simp [Spec.denote, hlen]
  have hd : List.zipWith (· * ·) q.value r.value = Spec.denote (q.scale * r.scale) (q.zeroPoint * r.zeroPoint) (List.zipWith (· * ·) ns ms) := by
    rw [hq.1, hr.1, hz₁, hz₂, zipWith_denote_mul, mul_zero]
  have hc : Spec.AllCodes (q.signed || r.signed) (q.bitWidth + r.bitWidth) (List.zipWith (· * ·) ns ms) := by
    intro k hk
    obtain ⟨n, hn, m, hm, rfl⟩ := mem_zipWith_of hk
    exact C30_enough_bits _ _ _ _ hb₁ hb₂ n m (hq.2 n hn) (hr.2 m hm)
  have hne' : List.zipWith (· * ·) ns ms ≠ [] := by
    cases ns with
    | nil => exact absurd rfl hne
    | cons n ns => cases ms with
      | nil => simp at hlen
      | cons m ms => simp
  refine ⟨_, by rw [IntQT.mul, if_pos ⟨hz₁, hz₂, hl⟩], rfl, rfl, by simp [hz₁], ⟨hd, hc⟩, ?_, ?_⟩
  · exact isValid_denote _ (by simp only; omega) (mul_ne_zero hs₁ hs₂) ha _ hne' hd hc
  · exact int_denote _ (by simp only; omega) (mul_ne_zero hs₁ hs₂) ha _ hne' hd hc

/-- C30: a non-zero zero point is rejected. -/
theorem C30_zero_point_rejected (q r : IntQT K) (h : q.zeroPoint ≠ 0 ∨ r.zeroPoint ≠ 0) : q.mul r = none := by
  rw [IntQT.mul, if_neg]
  rintro ⟨h1, h2, -⟩
  rcases h with h | h
  · exact h h1
  · exact h h2

/-- C30, division: the value is the element-wise quotient (nothing is claimed about validity: the code says it is not guaranteed). -/
theorem C30_division_value (q r : IntQT K) (o : IntQT K) (h : q.truediv r = some o) :
    o.value = List.zipWith (· / ·) q.value r.value ∧ o.zeroPoint = 0 ∧ o.bitWidth = q.bitWidth + r.bitWidth ∧
      (∀ y ∈ r.value, y ≠ 0) := by
  unfold IntQT.truediv at h
  by_cases hc : q.zeroPoint = 0 ∧ r.zeroPoint = 0 ∧ q.value.length = r.value.length ∧ (0 : K) ∉ r.value
  swap
  · rw [if_neg hc] at h; exact absurd h (by simp)
  rw [if_pos hc] at h
  rw [← Option.some.inj h]
  exact ⟨rfl, by simp [hc.1], rfl, fun y hy he => hc.2.2.2 (he ▸ hy)⟩

/-- C30, division: the quotient of two codes, in units of the scale given to the result, stays inside the container of the result,
and is at least one unit unless it is zero: the scale loses neither end of the range of the quotients. -/
theorem C30_division_codes (q r o : IntQT K) (ns ms : List ℤ) (hq : Represents q ns) (hr : Represents r ms)
    (hs₁ : q.scale ≠ 0) (hs₂ : r.scale ≠ 0) (hb₁ : 1 ≤ q.bitWidth) (hb₂ : 1 ≤ r.bitWidth) (h : q.truediv r = some o) :
    o.bitWidth = q.bitWidth + r.bitWidth ∧ o.signed = (q.signed || r.signed) ∧ ∀ y ∈ o.value,
      ((Spec.lo o.signed false o.bitWidth : ℤ) : K) ≤ y / o.scale ∧ y / o.scale ≤ ((Spec.hi o.signed false o.bitWidth : ℤ) : K) ∧
        (y ≠ 0 → 1 ≤ |y / o.scale|) := by
  unfold IntQT.truediv at h
  by_cases hc : q.zeroPoint = 0 ∧ r.zeroPoint = 0 ∧ q.value.length = r.value.length ∧ (0 : K) ∉ r.value
  swap
  · rw [if_neg hc] at h; exact absurd h (by simp)
  rw [if_pos hc] at h
  rw [← Option.some.inj h]
  refine ⟨rfl, rfl, ?_⟩
  intro y hy
  obtain ⟨a, ha, b, hb, rfl⟩ := mem_zipWith_of hy
  have hb0 : b ≠ 0 := fun he => hc.2.2.2 (he ▸ hb)
  rw [hq.1, Spec.denote, List.mem_map] at ha
  rw [hr.1, Spec.denote, List.mem_map] at hb
  obtain ⟨n, hn, rfl⟩ := ha
  obtain ⟨m, hm, rfl⟩ := hb
  rw [hc.2.1, sub_zero] at hb0 ⊢
  rw [hc.1, sub_zero]
  have hm0 : m ≠ 0 := by
    rintro rfl
    simp at hb0
  obtain ⟨a₁, a₂⟩ := hq.2 n hn
  obtain ⟨c₁, c₂⟩ := hr.2 m hm
  dsimp only
  -- the unit of the denominator, as an integer
  obtain ⟨M, hM, hMz⟩ : ∃ M : ℤ, M = 2 ^ (r.bitWidth - (if r.signed then 1 else 0)) ∧
      ((2 : K) ^ ((r.bitWidth : ℤ) - (if r.signed then 1 else 0))) = (M : K) := by
    refine ⟨_, rfl, ?_⟩
    have : ((r.bitWidth : ℤ) - (if r.signed then 1 else 0)) = ((r.bitWidth - (if r.signed then 1 else 0) : ℕ) : ℤ) := by
      split_ifs <;> omega
    rw [this, zpow_natCast]
    push_cast
    rfl
  rw [hMz]
  have hMpos : 0 < M := by rw [hM]; positivity
  have hMK : (0 : K) < M := by exact_mod_cast hMpos
  have hmK : (m : K) ≠ 0 := by exact_mod_cast hm0
  have hval : (n : K) * q.scale / ((m : K) * r.scale) / (q.scale / (r.scale * M)) = (n * M : ℤ) / (m : K) := by
    push_cast
    field_simp
  rw [hval]
  have habs : |((n * M : ℤ) : K) / (m : K)| ≤ ((|n| * M : ℤ) : K) := by
    rw [abs_div, div_le_iff₀ (abs_pos.2 hmK), ← Int.cast_abs, ← Int.cast_abs, ← Int.cast_mul, Int.cast_le, abs_mul,
      abs_of_pos hMpos]
    exact le_mul_of_one_le_right (by positivity) (Int.one_le_abs hm0)
  have p₁ := pow_split hb₁
  have p₂ := pow_split hb₂
  have q₁ : (1 : ℤ) ≤ 2 ^ (q.bitWidth - 1) := one_le_pow₀ (by norm_num)
  have q₂ : (1 : ℤ) ≤ 2 ^ (r.bitWidth - 1) := one_le_pow₀ (by norm_num)
  have hE : (2 : ℤ) ^ (q.bitWidth + r.bitWidth) = 2 * (2 * (2 ^ (q.bitWidth - 1) * 2 ^ (r.bitWidth - 1))) := by
    rw [pow_add, p₁, p₂]; ring
  have hE1 : (2 : ℤ) ^ (q.bitWidth + r.bitWidth - 1) = 2 * (2 ^ (q.bitWidth - 1) * 2 ^ (r.bitWidth - 1)) := by
    have := pow_split (b := q.bitWidth + r.bitWidth) (by omega)
    omega
  have hmM : |m| ≤ M := by
    rw [hM, abs_le]
    cases hrs : r.signed <;> rw [hrs] at c₁ c₂ <;>
      simp only [Spec.lo, Spec.hi, if_true, if_false, Bool.false_eq_true, Nat.sub_zero] at c₁ c₂ ⊢ <;> constructor <;> omega
  refine ⟨?_, ?_, ?_⟩
  · cases hrs : r.signed <;> cases hqs : q.signed <;> rw [hrs] at c₁ c₂ hM <;> rw [hqs] at a₁ a₂ <;>
      simp only [Spec.lo, Spec.hi, if_true, if_false, Bool.false_eq_true, Nat.sub_zero, Bool.or_self, Bool.or_true, Bool.or_false,
        hE1] at a₁ a₂ c₁ c₂ hM ⊢
    · have : (0 : K) ≤ ((n * M : ℤ) : K) / (m : K) :=
        div_nonneg (by exact_mod_cast mul_nonneg a₁ hMpos.le) (by exact_mod_cast c₁)
      simpa using this
    all_goals
      refine le_trans ?_ (neg_le_of_abs_le habs)
      rw [← Int.cast_neg, Int.cast_le]
      have hna : |n| ≤ 2 * 2 ^ (q.bitWidth - 1) ∧ (r.signed = false → |n| ≤ 2 ^ (q.bitWidth - 1)) := by
        rw [abs_le]
        constructor
        · constructor <;> omega
        · intro h2
          first
            | (rw [abs_le]; constructor <;> omega)
            | (rw [hrs] at h2; cases h2)
      rw [hrs] at hna
      generalize (2 : ℤ) ^ (q.bitWidth - 1) = A at *
      first
        | (have h3 := hna.2 rfl; rw [hM, p₂]; nlinarith)
        | (have h3 := hna.1; rw [hM]; nlinarith)
  · cases hrs : r.signed <;> cases hqs : q.signed <;> rw [hrs] at c₁ c₂ hM <;> rw [hqs] at a₁ a₂ <;>
      simp only [Spec.lo, Spec.hi, if_true, if_false, Bool.false_eq_true, Nat.sub_zero, Bool.or_self, Bool.or_true, Bool.or_false,
        hE, hE1] at a₁ a₂ c₁ c₂ hM ⊢
    · refine le_trans (le_of_abs_le habs) ?_
      rw [Int.cast_le, abs_of_nonneg a₁, hM, p₂]
      rw [p₁] at a₂
      nlinarith
    · -- signed numerator, unsigned denominator: the denominator is positive
      have hmpos : (1 : ℤ) ≤ m := by omega
      rw [div_le_iff₀ (by exact_mod_cast hmpos), ← Int.cast_mul, Int.cast_le, hM, p₂]
      generalize (2 : ℤ) ^ (q.bitWidth - 1) = A at *
      generalize (2 : ℤ) ^ (r.bitWidth - 1) = B at *
      have h1 : n * (2 * B) ≤ (A - 1) * (2 * B) := mul_le_mul_of_nonneg_right a₂ (by linarith)
      have h2 : (2 * (A * B) - 1) * 1 ≤ (2 * (A * B) - 1) * m := mul_le_mul_of_nonneg_left hmpos (by nlinarith)
      nlinarith
    · refine le_trans (le_of_abs_le habs) ?_
      rw [Int.cast_le, abs_of_nonneg a₁, hM]
      rw [p₁] at a₂
      nlinarith
    · refine le_trans (le_of_abs_le habs) ?_
      have hna : |n| ≤ 2 ^ (q.bitWidth - 1) := by rw [abs_le]; constructor <;> omega
      rw [Int.cast_le, hM]
      generalize (2 : ℤ) ^ (q.bitWidth - 1) = A at *
      generalize (2 : ℤ) ^ (r.bitWidth - 1) = B at *
      have h1 : |n| * B ≤ A * B := mul_le_mul_of_nonneg_right hna (by linarith)
      nlinarith
  · intro hy0
    have hn0 : n ≠ 0 := by
      rintro rfl
      simp at hy0
    rw [abs_div, le_div_iff₀ (abs_pos.2 hmK), one_mul, ← Int.cast_abs, ← Int.cast_abs, Int.cast_le, abs_mul, abs_of_pos hMpos]
    calc |m| ≤ 1 * M := by rw [one_mul]; exact hmM
      _ ≤ |n| * M := mul_le_mul_of_nonneg_right (Int.one_le_abs hn0) hMpos.le

/-- C30, division: the result really can be invalid (3 / 2 with 3-bit operands has scale 1/4: 6; 1/3 is not on the grid). -/
theorem C30_division_not_valid :
    ∃ o, (⟨[1], 1, 0, 3, true, false⟩ : IntQT ℚ).truediv ⟨[3], 1, 0, 3, true, false⟩ = some o ∧ o.isValid (1/5) = some false := by
  refine ⟨_, rfl, by decide +kernel⟩

example : (⟨[-64, 6], 1/2, 0, 8, true, false⟩ : IntQT ℚ).mul ⟨[255, 2], 1, 0, 8, false, false⟩ =
    some ⟨[-16320, 12], 1/2, 0, 16, true, false⟩ := by decide +kernel

/-! ## C31 -/

/-- C31: what negation computes on an exact quant tensor: the values `(-n - zero_point) * scale`. They are the negated values exactly
when the zero point is 0. -/
theorem C31_neg_value_iff (q : IntQT K) (ns : List ℤ) (hq : Represents q ns) (hb : 2 ≤ q.bitWidth) (hs : q.scale ≠ 0) (hne : ns ≠ [])
    (atol : K) (ha : 0 < atol) :
    ∃ o, q.neg atol = some o ∧ (o.value = q.value.map (fun v => -v) ↔ q.zeroPoint = 0) := by
  have hi := int_denote q hb hs ha ns hne hq.1 hq.2
  refine ⟨_, by rw [IntQT.neg, hi]; rfl, ?_⟩
  have hval : (if q.signed then { q with value := ns.map fun n : ℤ => (-(n : K) - q.zeroPoint) * q.scale }
      else { q with value := ns.map fun n : ℤ => (-(n : K) - q.zeroPoint) * q.scale, bitWidth := q.bitWidth + 1, signed := true } : IntQT K).value
      = ns.map fun n : ℤ => (-(n : K) - q.zeroPoint) * q.scale := by split_ifs <;> rfl
  rw [hval, hq.1, Spec.denote, List.map_map]
  constructor
  · intro h
    obtain ⟨n, hn⟩ := List.exists_mem_of_ne_nil ns hne
    have := (List.map_inj_left.mp h) n hn
    simp only [Function.comp] at this
    have h2 : q.zeroPoint * q.scale = 0 := by linarith
    rcases mul_eq_zero.mp h2 with h | h
    · exact h
    · exact absurd h hs
  · intro h
    apply List.map_congr_left
    intro n _
    simp only [Function.comp, h]; ring

/-- C31, negation, without zero point and (signed case) without the most negative code: the result is an exact, valid quant tensor of
the negated values. Missing: non-zero zero points (`C31_neg_value_iff`) and the most negative code (`C31_neg_overflows`). -/
theorem C31_neg_partial (q : IntQT K) (ns : List ℤ) (hq : Represents q ns) (hb : 2 ≤ q.bitWidth) (hs : q.scale ≠ 0) (hne : ns ≠ [])
    (hz : q.zeroPoint = 0) (hmin : q.signed = true → ∀ n ∈ ns, n ≠ -2 ^ (q.bitWidth - 1)) (atol : K) (ha : 0 < atol) :
    ∃ o, q.neg atol = some o ∧ o.value = q.value.map (fun v => -v) ∧ Represents o (ns.map fun n => -n) ∧
      o.isValid atol = some true := by
  have hi := int_denote q hb hs ha ns hne hq.1 hq.2
  have hne' : (ns.map fun n => -n) ≠ [] := by simpa using hne
  have hval : (ns.map fun n : ℤ => (-(n : K) - q.zeroPoint) * q.scale) = Spec.denote q.scale q.zeroPoint (ns.map fun n => -n) := by
    rw [Spec.denote, List.map_map]
    apply List.map_congr_left
    intro n _; simp
  have hvn : (ns.map fun n : ℤ => (-(n : K) - q.zeroPoint) * q.scale) = q.value.map (fun v => -v) := by
    rw [hq.1, Spec.denote, List.map_map]
    apply List.map_congr_left
    intro n _; simp only [Function.comp, hz]; ring
  cases hsg : q.signed with
  | true =>
    have hc : Spec.AllCodes true q.bitWidth (ns.map fun n => -n) := by
      intro k hk
      obtain ⟨n, hn, rfl⟩ := List.mem_map.mp hk
      have h1 := hmin hsg n hn
      obtain ⟨h2, h3⟩ := hq.2 n hn
      rw [hsg] at h2 h3
      simp only [Spec.lo, Spec.hi, if_true, Bool.false_eq_true, if_false] at h2 h3
      simp only [Spec.IsCode, Spec.lo, Spec.hi, if_true, Bool.false_eq_true, if_false]
      omega
    refine ⟨{ q with value := ns.map fun n : ℤ => (-(n : K) - q.zeroPoint) * q.scale },
      by rw [IntQT.neg, hi]; simp [hsg], hvn, ⟨hval, by simpa [hsg] using hc⟩, ?_⟩
    exact isValid_denote { q with value := ns.map fun n : ℤ => (-(n : K) - q.zeroPoint) * q.scale } hb hs ha _ hne' hval
      (by simpa [hsg] using hc)
  | false =>
    have hc : Spec.AllCodes true (q.bitWidth + 1) (ns.map fun n => -n) := by
      intro k hk
      obtain ⟨n, hn, rfl⟩ := List.mem_map.mp hk
      obtain ⟨h2, h3⟩ := hq.2 n hn
      rw [hsg] at h2 h3
      simp only [Spec.lo, Spec.hi, Bool.false_eq_true, if_false] at h2 h3
      simp only [Spec.IsCode, Spec.lo, Spec.hi, if_true, Bool.false_eq_true, if_false, Nat.add_sub_cancel]
      omega
    refine ⟨{ q with value := ns.map fun n : ℤ => (-(n : K) - q.zeroPoint) * q.scale, bitWidth := q.bitWidth + 1, signed := true },
      by rw [IntQT.neg, hi]; simp [hsg], hvn, ⟨hval, hc⟩, ?_⟩
    exact isValid_denote { q with value := ns.map fun n : ℤ => (-(n : K) - q.zeroPoint) * q.scale, bitWidth := q.bitWidth + 1, signed := true }
      (by simp only; omega) hs ha _ hne' hval hc

/-- C31 fails at the most negative code: negating an int8 tensor that contains -128 gives an invalid tensor. -/
theorem C31_neg_overflows : let q : IntQT ℚ := ⟨[-128], 1, 0, 8, true, false⟩
    Represents q [-128] ∧ ∃ o, q.neg (1/5) = some o ∧ o.value = [128] ∧ o.isValid (1/5) = some false := by
  refine ⟨⟨by decide +kernel, by unfold Spec.AllCodes Spec.IsCode; decide⟩, ⟨[128], 1, 0, 8, true, false⟩, by decide +kernel, by decide +kernel, by decide +kernel⟩

/-- C31 fails with a zero point: negating the value 3 (code 8, zero point 5) returns -13, which is not even a code. -/
theorem C31_neg_wrong_with_zero_point : let q : IntQT ℚ := ⟨[3], 1, 5, 8, false, false⟩
    Represents q [8] ∧ ∃ o, q.neg (1/5) = some o ∧ o.value = [-13] := by
  refine ⟨⟨by decide +kernel, by unfold Spec.AllCodes Spec.IsCode; decide⟩, ⟨[-13], 1, 5, 9, true, false⟩, by decide +kernel, by decide +kernel⟩

/-- C31: subtraction of zero-point-free tensors of the same scale is exact (same conditions as negation). -/
theorem C31_sub_partial (q r : IntQT K) (ns ms : List ℤ) (hq : Represents q ns) (hr : Represents r ms) (hsc : q.scale = r.scale)
    (hs : q.scale ≠ 0) (hlen : ns.length = ms.length) (hne : ns ≠ []) (hb₂ : 2 ≤ r.bitWidth)
    (hz : r.zeroPoint = 0) (hmin : r.signed = true → ∀ n ∈ ms, n ≠ -2 ^ (r.bitWidth - 1)) (atol : K) (ha : 0 < atol) :
    ∃ o, q.sub r atol = some o ∧ o.value = List.zipWith (· - ·) q.value r.value ∧
      o.value = Spec.denote o.scale o.zeroPoint (List.zipWith (· - ·) ns ms) := by
  have hne2 : ms ≠ [] := by
    intro h; rw [h] at hlen; exact hne (List.length_eq_zero_iff.mp hlen)
  obtain ⟨m, hm, hmv, hmr, -⟩ := C31_neg_partial r ms hr hb₂ (hsc ▸ hs) hne2 hz hmin atol ha
  have hms : m.scale = r.scale := by
    have hi := int_denote r hb₂ (hsc ▸ hs) ha ms hne2 hr.1 hr.2
    rw [IntQT.neg, hi] at hm
    simp only [Option.map_some, Option.some.injEq] at hm
    rw [← hm]; split_ifs <;> rfl
  obtain ⟨o, ho, h1, -, h3, -⟩ := C29_exact q m ns (ms.map fun n => -n) hq hmr (hsc.trans hms.symm) (by simpa using hlen)
  have e1 : List.zipWith (· + ·) ns (ms.map fun n => -n) = List.zipWith (· - ·) ns ms := by
    rw [List.zipWith_map_right]
    congr 1
  have e2 : List.zipWith (· + ·) q.value (r.value.map fun v => -v) = List.zipWith (· - ·) q.value r.value := by
    rw [List.zipWith_map_right]
    congr 1
    funext a b; exact (sub_eq_add_neg a b).symm
  refine ⟨o, by rw [IntQT.sub, hm]; exact ho, ?_, ?_⟩
  · rw [h1, hmv, e2]
  · rw [h3, e1]

/-- C31 fails for subtraction with zero points: `x - x` is not zero (code 8, zero point 5: 3 - 3 is returned as -10). -/
theorem C31_sub_wrong_with_zero_point : let q : IntQT ℚ := ⟨[3], 1, 5, 8, false, false⟩
    ∃ o, q.sub q (1/5) = some o ∧ o.value = [-10] := ⟨⟨[-10], 1, 10, 10, true, false⟩, by decide +kernel, by decide +kernel⟩

/-- C31, absolute value, without zero point and without the most negative code. Missing: the rest, where it fails
(`C31_abs_overflows`, `C31_abs_wrong_with_zero_point`). -/
theorem C31_abs_partial (q : IntQT K) (ns : List ℤ) (hq : Represents q ns) (hb : 3 ≤ q.bitWidth) (hs : 0 < q.scale) (hne : ns ≠ [])
    (hz : q.zeroPoint = 0) (hmin : q.signed = true → ∀ n ∈ ns, n ≠ -2 ^ (q.bitWidth - 1)) (atol : K) (ha : 0 < atol) :
    ∃ o, q.abs atol = some o ∧ o.value = q.value.map (fun v => |v|) ∧ Represents o (ns.map fun n => |n|) ∧ o.signed = false ∧
      o.isValid atol = some true := by
  have hi := int_denote q (by omega) hs.ne' ha ns hne hq.1 hq.2
  have hne' : (ns.map fun n => |n|) ≠ [] := by simpa using hne
  cases hsg : q.signed with
  | true =>
    have hval : (ns.map fun n : ℤ => (|(n : K)| - q.zeroPoint) * q.scale) = Spec.denote q.scale q.zeroPoint (ns.map fun n => |n|) := by
      rw [Spec.denote, List.map_map]
      apply List.map_congr_left
      intro n _; simp
    have hvn : (ns.map fun n : ℤ => (|(n : K)| - q.zeroPoint) * q.scale) = q.value.map (fun v => |v|) := by
      rw [hq.1, Spec.denote, List.map_map]
      apply List.map_congr_left
      intro n _; simp only [Function.comp, hz, sub_zero, abs_mul, abs_of_pos hs]
    have hc : Spec.AllCodes false (q.bitWidth - 1) (ns.map fun n => |n|) := by
      intro k hk
      obtain ⟨n, hn, rfl⟩ := List.mem_map.mp hk
      have h1 := hmin hsg n hn
      obtain ⟨h2, h3⟩ := hq.2 n hn
      rw [hsg] at h2 h3
      simp only [Spec.lo, Spec.hi, if_true, Bool.false_eq_true, if_false] at h2 h3
      simp only [Spec.IsCode, Spec.lo, Spec.hi, Bool.false_eq_true, if_false]
      refine ⟨abs_nonneg n, abs_le.mpr ⟨by omega, by omega⟩⟩
    refine ⟨{ q with value := ns.map fun n : ℤ => (|(n : K)| - q.zeroPoint) * q.scale, bitWidth := q.bitWidth - 1, signed := false },
      by rw [IntQT.abs, hi]; simp [hsg], hvn, ⟨hval, hc⟩, rfl, ?_⟩
    exact isValid_denote { q with value := ns.map fun n : ℤ => (|(n : K)| - q.zeroPoint) * q.scale, bitWidth := q.bitWidth - 1, signed := false }
      (by simp only; omega) hs.ne' ha _ hne' hval hc
  | false =>
    have hnn : ∀ n ∈ ns, 0 ≤ n := by
      intro n hn
      have := (hq.2 n hn).1
      rw [hsg] at this
      simpa [Spec.lo] using this
    have e : (ns.map fun n => |n|) = ns := by
      conv_rhs => rw [← List.map_id ns]
      apply List.map_congr_left
      intro n hn; simp [abs_of_nonneg (hnn n hn)]
    refine ⟨q, by rw [IntQT.abs]; simp [hsg], ?_, by rw [e]; exact hq, hsg, ?_⟩
    · conv_lhs => rw [← List.map_id q.value]
      apply List.map_congr_left
      intro v hv
      rw [hq.1] at hv
      obtain ⟨n, hn, rfl⟩ := List.mem_map.mp hv
      have : (0 : K) ≤ n := by exact_mod_cast hnn n hn
      simp only [id, hz, sub_zero]
      exact (abs_of_nonneg (mul_nonneg this hs.le)).symm
    · exact isValid_denote q (by omega) hs.ne' ha ns hne hq.1 hq.2

/-- C31 fails for the absolute value of the most negative code. -/
theorem C31_abs_overflows : let q : IntQT ℚ := ⟨[-128], 1, 0, 8, true, false⟩
    ∃ o, q.abs (1/5) = some o ∧ o.value = [128] ∧ o.bitWidth = 7 ∧ o.isValid (1/5) = some false :=
  ⟨⟨[128], 1, 0, 7, false, false⟩, by decide +kernel, by decide +kernel, by decide +kernel, by decide +kernel⟩

/-- C31 fails for the absolute value with a zero point: `|-4|` (code 1, zero point 5) is returned as -4. -/
theorem C31_abs_wrong_with_zero_point : let q : IntQT ℚ := ⟨[-4], 1, 5, 8, true, false⟩
    Represents q [1] ∧ ∃ o, q.abs (1/5) = some o ∧ o.value = [-4] := by
  refine ⟨⟨by decide +kernel, by unfold Spec.AllCodes Spec.IsCode; decide⟩, ⟨[-4], 1, 5, 7, false, false⟩, by decide +kernel, by decide +kernel⟩

example : Represents (⟨[-4, 5/2], 1/2, 0, 8, true, false⟩ : IntQT ℚ) [-8, 5] ∧
    (∀ n ∈ [(-8 : ℤ), 5], n ≠ -2 ^ (8 - 1)) :=
  ⟨⟨by decide +kernel, by unfold Spec.AllCodes Spec.IsCode; decide⟩, by decide⟩

/-! ## C32 -/

/-- C32: concatenating two or more exact quant tensors with equal metadata, in training mode or not, gives the concatenated values in order,
with the same metadata, denoted by the concatenated codes; the result is in training mode if an operand is. -/
theorem C32_cat (q r : IntQT K) (rest : List (IntQT K)) (codes : List (List ℤ))
    (hrep : List.Forall₂ Represents (q :: r :: rest) codes)
    (hsame : ∀ t ∈ r :: rest, t.scale = q.scale ∧ t.zeroPoint = q.zeroPoint ∧ t.bitWidth = q.bitWidth ∧ t.signed = q.signed) :
    ∃ training, (training = true ↔ ∃ t ∈ q :: r :: rest, t.training = true) ∧
    catQT (q :: r :: rest) = some ⟨((q :: r :: rest).map fun t => t.value).flatten, q.scale, q.zeroPoint, q.bitWidth, q.signed, training⟩ ∧
    ((q :: r :: rest).map fun t => t.value).flatten = Spec.denote q.scale q.zeroPoint codes.flatten ∧
    Spec.AllCodes q.signed q.bitWidth codes.flatten := by
  have mean : ∀ (f : IntQT K → K), (∀ t ∈ r :: rest, f t = f q) →
      ((q :: r :: rest).map f).sum / ((q :: r :: rest).length : K) = f q := by
    intro f hf
    have e : (q :: r :: rest).map f = List.replicate (q :: r :: rest).length (f q) := by
      rw [List.eq_replicate_iff]
      refine ⟨by simp, fun x hx => ?_⟩
      obtain ⟨t, ht, rfl⟩ := List.mem_map.mp hx
      rcases List.mem_cons.mp ht with rfl | ht
      · rfl
      · exact hf t ht
    rw [e, List.sum_replicate, nsmul_eq_mul]
    have : ((q :: r :: rest).length : K) ≠ 0 := by
      rw [List.length_cons]
      positivity
    rw [mul_comm, mul_div_assoc, div_self this, mul_one]
  refine ⟨(q :: r :: rest).any fun t => t.training, by rw [List.any_eq_true], ?_, ?_⟩
  · have hchk : ((r :: rest).all fun qt => q.checkScale qt && q.checkZeroPoint qt && q.checkBitWidth qt && q.checkSign qt) = true := by
      rw [List.all_eq_true]
      intro t ht
      obtain ⟨h1, h2, h3, h4⟩ := hsame t ht
      simp [IntQT.checkScale, IntQT.checkZeroPoint, IntQT.checkBitWidth, IntQT.checkSign, h1, h2, h3, h4, allclose_self]
    rw [catQT]
    · simp only [hchk, if_true]
      by_cases hany : ((q :: r :: rest).any fun t => t.training) = true
      · simp only [hany, if_true]
        rw [mean (fun q => q.scale) fun t ht => (hsame t ht).1, mean (fun q => q.zeroPoint) fun t ht => (hsame t ht).2.1,
          mean (fun q => (q.bitWidth : K)) fun t ht => by rw [(hsame t ht).2.2.1]]
      · rw [Bool.not_eq_true] at hany
        simp only [hany, Bool.false_eq_true, if_false]
    · simp
  · have hall : ∀ t ∈ q :: r :: rest, t.scale = q.scale ∧ t.zeroPoint = q.zeroPoint ∧ t.bitWidth = q.bitWidth ∧ t.signed = q.signed := by
      intro t ht
      rcases List.mem_cons.mp ht with rfl | ht
      · exact ⟨rfl, rfl, rfl, rfl⟩
      · exact hsame t ht
    revert hrep hall
    generalize (q :: r :: rest) = ts
    intro hrep hall
    clear hsame mean
    induction hrep with
    | nil => exact ⟨by simp [Spec.denote], by intro n hn; simp at hn⟩
    | @cons t ns ts codes h1 h2 ih =>
      obtain ⟨e1, e2⟩ := ih (fun t ht => hall t (List.mem_cons_of_mem _ ht))
      obtain ⟨a1, a2, a3, a4⟩ := hall t (by simp)
      constructor
      · rw [List.map_cons, List.flatten_cons, List.flatten_cons, e1, h1.1, a1, a2]
        simp [Spec.denote]
      · intro n hn
        rw [List.flatten_cons, List.mem_append] at hn
        rcases hn with hn | hn
        · have := h1.2 n hn
          rwa [a3, a4] at this
        · exact e2 n hn

/-- C32: a mismatch of sign is always rejected; a mismatch of bit width by one or more is rejected (widths below 99 thousand bits);
mismatches of scale or zero point beyond the tolerance are rejected when the first tensor is not in training mode. Missing: training mode, for which it fails
(`C32_training_mismatch_accepted`). -/
theorem C32_mismatch_rejected_partial (q r : IntQT K) (rest : List (IntQT K)) (t : IntQT K) (ht : t ∈ r :: rest)
    (hm : t.signed ≠ q.signed ∨ (t.bitWidth ≠ q.bitWidth ∧ t.bitWidth < 99000) ∨
      (q.training = false ∧ 1 / 10 ^ 8 + 1 / 10 ^ 5 * |t.scale| < |q.scale - t.scale|) ∨
      (q.training = false ∧ 1 / 10 ^ 8 + 1 / 10 ^ 5 * |t.zeroPoint| < |q.zeroPoint - t.zeroPoint|)) :
    catQT (q :: r :: rest) = none := by
  have hfail : (q.checkScale t && q.checkZeroPoint t && q.checkBitWidth t && q.checkSign t) = false := by
    rcases hm with h | ⟨h, hlt⟩ | ⟨h, h'⟩ | ⟨h, h'⟩
    · have : q.checkSign t = false := by simp only [IntQT.checkSign]; simpa using fun e : q.signed = t.signed => h e.symm
      simp [this]
    · have : q.checkBitWidth t = false := by
        simp only [IntQT.checkBitWidth, allclose, decide_eq_false_iff_not, not_le]
        have h1 : (1 : K) ≤ |(q.bitWidth : K) - t.bitWidth| := by
          have : (1 : ℤ) ≤ |(q.bitWidth : ℤ) - t.bitWidth| := Int.one_le_abs (by omega)
          exact_mod_cast this
        have h2 : (t.bitWidth : K) < 99000 := by exact_mod_cast hlt
        have h3 : (0 : K) ≤ t.bitWidth := Nat.cast_nonneg _
        rw [abs_of_nonneg h3]
        refine lt_of_lt_of_le ?_ h1
        have : (1 : K) / 10 ^ 8 + 1 / 10 ^ 5 * 99000 < 1 := by norm_num
        have : (1 : K) / 10 ^ 5 * t.bitWidth ≤ 1 / 10 ^ 5 * 99000 := mul_le_mul_of_nonneg_left h2.le (by norm_num)
        linarith
      simp [this]
    · have : q.checkScale t = false := by
        simp only [IntQT.checkScale, h, Bool.false_or, allclose]; simpa using h'
      simp [this]
    · have : q.checkZeroPoint t = false := by
        simp only [IntQT.checkZeroPoint, h, Bool.false_or, allclose]; simpa using h'
      simp [this]
  have hall : ((r :: rest).all fun qt => q.checkScale qt && q.checkZeroPoint qt && q.checkBitWidth qt && q.checkSign qt) = false := by
    rw [← Bool.not_eq_true, List.all_eq_true]
    intro h
    have := h t ht
    rw [hfail] at this
    exact absurd this (by simp)
  rw [catQT]
  · simp only [hall, Bool.false_eq_true, if_false]
  · simp

/-- C32 fails in training mode, where scale mismatches are accepted and averaged: the result is not on the grid of its own scale. -/
theorem C32_training_mismatch_accepted :
    let q : IntQT ℚ := ⟨[1], 1, 0, 8, true, true⟩
    let r : IntQT ℚ := ⟨[2], 2, 0, 8, true, true⟩
    Represents q [1] ∧ Represents r [1] ∧ catQT [q, r] = some ⟨[1, 2], 3/2, 0, 8, true, true⟩ ∧
    (⟨[1, 2], 3/2, 0, 8, true, true⟩ : IntQT ℚ).isValid (1/5) = some false := by
  refine ⟨⟨by decide +kernel, by unfold Spec.AllCodes Spec.IsCode; decide⟩,
    ⟨by decide +kernel, by unfold Spec.AllCodes Spec.IsCode; decide⟩, by decide +kernel, by decide +kernel⟩

/-- C32: the check depends on the order of the operands: only the training flag of the first one is consulted. -/
theorem C32_order_dependent :
    let q : IntQT ℚ := ⟨[1], 1, 0, 8, true, true⟩
    let r : IntQT ℚ := ⟨[2], 2, 0, 8, true, false⟩
    (catQT [q, r]).isSome = true ∧ catQT [r, q] = none := by decide +kernel

example : catQT [(⟨[1, 2], 1, 0, 4, true, false⟩ : IntQT ℚ), ⟨[3], 1, 0, 4, true, false⟩, ⟨[-1], 1, 0, 4, true, false⟩] =
    some ⟨[1, 2, 3, -1], 1, 0, 4, true, false⟩ := by decide +kernel

end Brevitas.Props
