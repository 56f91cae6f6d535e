import Verif.Model.Hadamard
import Verif.Props.Combine
import Mathlib.Algebra.BigOperators.Group.List.Basic
import Mathlib.Analysis.SpecialFunctions.Pow.Real

/-!
# C106: the Hadamard classifier
-/

set_option linter.unusedSectionVars false

namespace Brevitas.Props

open Brevitas NdTensor QuantConv WbLayer

variable {K : Type*} [Field K] [LinearOrder K] [IsStrictOrderedRing K] [FloorRing K]

/-! ### The matrix -/

/-- C106, entries: the entries of the matrix are 1 and -1. -/
theorem C106_entries (k i j : ℕ) : Hadamard.matrix k i j = 1 ∨ Hadamard.matrix k i j = -1 := by
  induction k generalizing i j with
  | zero => exact Or.inl rfl
  | succ k ih =>
    unfold Hadamard.matrix
    split_ifs
    · exact ih _ _
    · exact ih _ _
    · rcases ih (i - 2 ^ k) (j - 2 ^ k) with h | h <;> rw [h] <;> simp

/-- Dot product of two rows of the matrix. -/
def rowDot (k i i' : ℕ) : ℤ := ((List.range (2 ^ k)).map fun j => Hadamard.matrix k i j * Hadamard.matrix k i' j).sum

theorem sum_range_add (a b : ℕ) (f : ℕ → ℤ) : ((List.range (a + b)).map f).sum = ((List.range a).map f).sum + ((List.range b).map fun j => f (a + j)).sum := by
  rw [List.range_add, List.map_append, List.sum_append, List.map_map]
  rfl

/-- C106, rows: the rows of the matrix are orthogonal, and the product of a row with itself is the size of the matrix. -/
theorem C106_rows_orthogonal (k : ℕ) : ∀ i i', i < 2 ^ k → i' < 2 ^ k → rowDot k i i' = if i = i' then 2 ^ k else 0 := by
  induction k with
  | zero => intro i i' h h'; have : i = i' := by omega
            subst this; simp [rowDot, Hadamard.matrix]
  | succ k ih =>
    intro i i' h h'
    have e2 : 2 ^ (k + 1) = 2 ^ k + 2 ^ k := by ring
    have lower : ∀ (i j : ℕ), j < 2 ^ k → Hadamard.matrix (k + 1) i j = Hadamard.matrix k (if i < 2 ^ k then i else i - 2 ^ k) j := by
      intro i j hj
      rw [Hadamard.matrix]
      by_cases hi : i < 2 ^ k
      · rw [if_pos hi, if_pos hi, Nat.mod_eq_of_lt hj]
      · rw [if_neg hi, if_neg hi, if_pos hj]
    have upper : ∀ (i j : ℕ), j < 2 ^ k → Hadamard.matrix (k + 1) i (2 ^ k + j) = (if i < 2 ^ k then 1 else -1) * Hadamard.matrix k (if i < 2 ^ k then i else i - 2 ^ k) j := by
      intro i j hj
      rw [Hadamard.matrix]
      by_cases hi : i < 2 ^ k
      · rw [if_pos hi, if_pos hi, if_pos hi, Nat.add_mod_left, Nat.mod_eq_of_lt hj, one_mul]
      · rw [if_neg hi, if_neg hi, if_neg hi, if_neg (by omega), Nat.add_sub_cancel_left]; ring
    have dot : rowDot (k + 1) i i' = rowDot k (if i < 2 ^ k then i else i - 2 ^ k) (if i' < 2 ^ k then i' else i' - 2 ^ k) *
        (1 + (if i < 2 ^ k then 1 else -1) * (if i' < 2 ^ k then 1 else -1)) := by
      unfold rowDot
      rw [e2, sum_range_add, mul_add, mul_one]
      congr 1
      · congr 1
        apply List.map_congr_left
        intro j hj
        rw [lower _ _ (List.mem_range.mp hj), lower _ _ (List.mem_range.mp hj)]
      · rw [← List.sum_map_mul_right]
        congr 1
        apply List.map_congr_left
        intro j hj
        rw [upper _ _ (List.mem_range.mp hj), upper _ _ (List.mem_range.mp hj)]
        ring
    rw [dot]
    have hlt : ∀ i, i < 2 ^ (k + 1) → (if i < 2 ^ k then i else i - 2 ^ k) < 2 ^ k := by
      intro i hi; split_ifs <;> omega
    rw [ih _ _ (hlt i h) (hlt i' h')]
    by_cases hi : i < 2 ^ k <;> by_cases hi' : i' < 2 ^ k
    · simp only [if_pos hi, if_pos hi']
      split_ifs <;> ring
    · simp only [if_pos hi, if_neg hi']
      rw [if_neg (show ¬i = i' by omega)]; ring
    · simp only [if_neg hi, if_pos hi']
      rw [if_neg (show ¬i = i' by omega)]; ring
    · simp only [if_neg hi, if_neg hi']
      by_cases e : i = i'
      · subst e; simp only [if_true]; ring
      · rw [if_neg e, if_neg (show ¬i - 2 ^ k = i' - 2 ^ k by omega)]; ring

/-- C106, size: the matrix of a layer is the smallest with a column for each feature and a row for each class, so the rows of two classes are orthogonal. -/
theorem C106_size (l : Hadamard.Layer K) : l.inChannels ≤ 2 ^ l.order ∧ l.outChannels ≤ 2 ^ l.order ∧ (∀ k, l.inChannels ≤ 2 ^ k → l.outChannels ≤ 2 ^ k → l.order ≤ k) ∧
    ∀ o o', o < l.outChannels → o' < l.outChannels → o ≠ o' → rowDot l.order o o' = 0 := by
  have h : max l.inChannels l.outChannels ≤ 2 ^ l.order := Nat.le_pow_clog (by norm_num) _
  have ho := (le_max_right _ _).trans h
  refine ⟨(le_max_left _ _).trans h, ho, fun k h1 h2 => Nat.clog_le_of_le_pow (max_le h1 h2), fun o o' h1 h2 hne => ?_⟩
  rw [C106_rows_orthogonal _ _ _ (h1.trans_le ho) (h2.trans_le ho), if_neg hne]

/-! ### The layer -/

/-- C106, norm: what the features are divided by is the Frobenius norm of the input, plus `eps`. -/
theorem C106_norm (l : Hadamard.Layer K) (sqrt : K → K) (hsqrt : ∀ v, 0 ≤ v → 0 ≤ sqrt v ∧ sqrt v * sqrt v = v) (x : NdTensor K) :
    0 ≤ l.norm sqrt x - l.eps ∧ (l.norm sqrt x - l.eps) ^ 2 = ((indices x.shape).map fun idx => x.data idx ^ 2).sum := by
  have h0 : (0 : K) ≤ ((indices x.shape).map fun idx => x.data idx * x.data idx).sum := by
    refine List.sum_nonneg fun v hv => ?_
    obtain ⟨idx, -, rfl⟩ := List.mem_map.1 hv
    exact mul_self_nonneg _
  obtain ⟨h1, h2⟩ := hsqrt _ h0
  simp only [Hadamard.Layer.norm, add_sub_cancel_right, pow_two]
  exact ⟨h1, h2⟩

/-- C106, zero points: an input with one is refused. -/
theorem C106_zero_point_raises (l : Hadamard.Layer K) (sqrt : K → K) (q : ShapedQT K) (h : ∃ idx, InBounds q.zeroPoint.shape idx ∧ q.zeroPoint.data idx ≠ 0) :
    ∃ e, l.forward sqrt (.quant q) = .error e := by
  have hany : anyNonzero q.zeroPoint = true := by
    obtain ⟨idx, hi, hne⟩ := h
    simp only [anyNonzero, List.any_eq_true]
    exact ⟨idx, (mem_indices _ _).2 hi, by simpa using hne⟩
  unfold Hadamard.Layer.forward
  cases h1 : torchOp (l.value sqrt q.value) with
  | error e => exact ⟨e, by simp only [h1]; rfl⟩
  | ok v =>
    cases h2 : torchOp (bcOp (fun s n => s * l.scale / n) q.scale ⟨List.replicate q.value.shape.length 1, fun _ => l.norm sqrt q.value⟩) with
    | error e => exact ⟨e, by simp only [h1, h2, Except.bind]⟩
    | ok s =>
      refine ⟨.other, ?_⟩
      simp only [h1, h2, Except.bind, hany, if_true]
      split_ifs <;> rfl

theorem sum_abs_le {l : List ℕ} {f : ℕ → ℤ} {M : ℤ} (h : ∀ j ∈ l, |f j| ≤ M) : |(l.map f).sum| ≤ l.length * M := by
  induction l with
  | nil => simp
  | cons a l ih =>
    have h1 := h a (by simp)
    have h2 := ih fun j hj => h j (by simp [hj])
    simp only [List.map_cons, List.sum_cons, List.length_cons]
    have h3 := abs_add_le (f a) ((l.map f).sum)
    push_cast
    linarith

/-- The declared width holds a sum of `C` codes of magnitude at most `2 ^ (b - 1) - 1`. -/
theorem hadamard_width {b C : ℕ} (hb : 2 ≤ b) (hC : 0 < C) (m : ℤ) (hm : |m| ≤ C * (2 ^ (b - 1) - 1)) : _root_.Spec.IsCode true false (Nat.clog 2 ((2 ^ b - 1) * C)) m := by
  obtain ⟨a, rfl⟩ : ∃ a, b = a + 2 := ⟨b - 2, by omega⟩
  have hv : (2 ^ (a + 2) - 1) * C ≤ 2 ^ Nat.clog 2 ((2 ^ (a + 2) - 1) * C) := Nat.le_pow_clog (by norm_num) _
  have h4 : 4 ≤ 2 ^ (a + 2) := by
    rw [pow_add]; have := Nat.one_le_two_pow (n := a); omega
  have hv3 : 3 * C ≤ 2 ^ Nat.clog 2 ((2 ^ (a + 2) - 1) * C) := le_trans (Nat.mul_le_mul_right C (by omega)) hv
  obtain ⟨w, hw⟩ : ∃ w, Nat.clog 2 ((2 ^ (a + 2) - 1) * C) = w + 1 := by
    refine ⟨Nat.clog 2 ((2 ^ (a + 2) - 1) * C) - 1, ?_⟩
    have : Nat.clog 2 ((2 ^ (a + 2) - 1) * C) ≠ 0 := by
      intro h0; rw [h0] at hv3; omega
    omega
  rw [hw] at hv ⊢
  have hz : (2 ^ (a + 2) - 1 : ℤ) * C ≤ 2 * 2 ^ w := by
    have h5 : (((2 ^ (a + 2) - 1) * C : ℕ) : ℤ) ≤ ((2 ^ (w + 1) : ℕ) : ℤ) := by exact_mod_cast hv
    rw [Nat.cast_mul, Nat.cast_sub (by omega)] at h5
    push_cast at h5
    rw [pow_succ 2 w] at h5
    linarith
  have e : (a + 2 - 1 : ℕ) = a + 1 := by omega
  rw [e] at hm
  have hp : (2 : ℤ) ^ (a + 2) = 2 * 2 ^ (a + 1) := by rw [pow_succ]; ring
  rw [hp] at hz
  have hC' : (0 : ℤ) < C := by exact_mod_cast hC
  obtain ⟨h1, h2⟩ := abs_le.mp hm
  unfold _root_.Spec.IsCode Spec.lo Spec.hi
  simp only [if_true, Bool.false_eq_true, if_false, Nat.add_sub_cancel]
  constructor <;> nlinarith

/-- C106, codes: with `return_quant_tensor`, of a signed quant tensor (per-tensor scale, no zero point, two bits or more) whose codes leave out the most negative one, and for a positive
scale parameter, the classifier returns the product of the negated Hadamard matrix with the codes, in a quant tensor that holds them. Missing: unsigned inputs
(`C106_unsigned_overflows`), the most negative code (`C106_most_negative_overflows`), and layers that are not to return a quant tensor (`C106_default_raises`). -/
theorem C106_codes_partial (l : Hadamard.Layer K) (sqrt : K → K) (hsqrt : ∀ v, 0 ≤ sqrt v) (q : ShapedQT K) (n : List ℕ → ℤ) (pre : List ℕ) (hl : l.returnQuantTensor = true)
    (hs : 0 < l.scale) (he : 0 < l.eps) (hC : 0 < l.inChannels) (hq : HoldsCodes q n) (hp : PerTensor q) (hz : q.zeroPoint.data [] = 0) (hb : 2 ≤ q.bitWidth)
    (hshape : q.value.shape = pre ++ [l.inChannels]) (hn : ∀ idx, InBounds q.value.shape idx → |n idx| ≤ 2 ^ (q.bitWidth - 1) - 1) :
    ∃ r : ShapedQT K, l.forward sqrt (.quant q) = .ok (.quant r) ∧ r.value.shape = pre ++ [l.outChannels] ∧ r.signed = true ∧ r.bitWidth = l.maxOutputBitWidth q.bitWidth ∧
      (∀ idx, InBounds r.value.shape idx → r.scale.data (bcIndex r.scale.shape idx) = q.scale.data [] * l.scale / l.norm sqrt q.value) ∧
      HoldsCodes r fun idx => -((List.range l.inChannels).map fun j => n (idx.dropLast ++ [j]) * Hadamard.matrix l.order (idx.getLastD 0) j).sum := by
  have hnorm : 0 < l.norm sqrt q.value := add_pos_of_nonneg_of_pos (hsqrt _) he
  obtain ⟨hps, hpz⟩ := hp
  have hval : l.value sqrt q.value = some ⟨pre ++ [l.outChannels], fun idx =>
      -l.scale * ((List.range l.inChannels).map fun j => q.value.data (idx.dropLast ++ [j]) / l.norm sqrt q.value * (Hadamard.matrix l.order (idx.getLastD 0) j : K)).sum⟩ := by
    unfold Hadamard.Layer.value
    rw [hshape, if_pos ⟨by simp, by simp⟩, List.dropLast_concat]
  have hany : anyNonzero q.zeroPoint = false := by
    unfold anyNonzero
    rw [hpz]
    simp [indices, hz]
  have hbc : bcOp (fun s n => s * l.scale / n) q.scale ⟨List.replicate q.value.shape.length 1, fun _ => l.norm sqrt q.value⟩ =
      some ⟨List.replicate q.value.shape.length 1, fun idx => q.scale.data [] * l.scale / l.norm sqrt q.value⟩ := by
    unfold bcOp
    simp only [hps]
    rw [bcShape_comm, bcShape_of_broadcasts (broadcasts_nil _)]
    simp only [bcIndex_nil, Option.map_some]
  have hlen : q.value.shape.length = pre.length + 1 := by rw [hshape]; simp
  have hspos : ∀ idx, InBounds q.value.shape idx → 0 < q.scale.data [] := by
    intro idx hi
    have := hq.scale_pos idx hi
    rwa [hps, bcIndex_nil] at this
  refine ⟨⟨⟨pre ++ [l.outChannels], fun idx =>
      -l.scale * ((List.range l.inChannels).map fun j => q.value.data (idx.dropLast ++ [j]) / l.norm sqrt q.value * (Hadamard.matrix l.order (idx.getLastD 0) j : K)).sum⟩,
    ⟨List.replicate q.value.shape.length 1, fun idx => q.scale.data [] * l.scale / l.norm sqrt q.value⟩, q.zeroPoint, l.maxOutputBitWidth q.bitWidth, true, l.training⟩, ?_, rfl, rfl, rfl, fun _ _ => rfl, ?_⟩
  · unfold Hadamard.Layer.forward
    simp only [hval, torchOp, Except.bind, hbc, hl, if_true, hany, Bool.false_eq_true, if_false]
  · have hin : ∀ idx, InBounds (pre ++ [l.outChannels]) idx → ∀ j, j < l.inChannels → InBounds q.value.shape (idx.dropLast ++ [j]) := by
      intro idx hi j hj
      rw [hshape]
      have hne : idx ≠ [] := by
        rintro rfl
        have := hi.length_eq
        simp at this
      have e : idx = idx.dropLast ++ [idx.getLast hne] := (List.dropLast_append_getLast hne).symm
      have h1 : InBounds (pre ++ [l.outChannels]) (idx.dropLast ++ [idx.getLast hne]) := e ▸ hi
      have hl1 : idx.dropLast.length = pre.length := by
        have := hi.length_eq
        simp at this ⊢
        omega
      unfold InBounds at h1 ⊢
      have h2 := (List.forall₂_iff_get.mp h1).2
      refine List.rel_append ?_ (List.Forall₂.cons hj .nil)
      rw [List.forall₂_iff_get]
      refine ⟨hl1, fun i h3 h4 => ?_⟩
      have := h2 i (by simp; simp at h3; omega) (by simp; omega)
      simp only [List.get_eq_getElem, List.getElem_append_left h3, List.getElem_append_left h4] at this ⊢
      exact this
    refine ⟨⟨by simp [hlen], ?_⟩, ?_, ?_, ?_⟩
    · rw [List.forall₂_iff_get]
      refine ⟨by simp [hlen], fun i h1 h2 => Or.inl (by simp)⟩
    · simp only [hpz]; exact broadcasts_nil _
    · intro idx hi
      exact div_pos (mul_pos (hspos _ (hin idx hi 0 hC)) hs) hnorm
    · intro idx hi
      refine ⟨?_, ?_⟩
      · simp only [hpz, bcIndex_nil, hz, sub_zero]
        have e : (List.range l.inChannels).map (fun j => q.value.data (idx.dropLast ++ [j]) / l.norm sqrt q.value * (Hadamard.matrix l.order (idx.getLastD 0) j : K)) =
            (List.range l.inChannels).map fun j => ((n (idx.dropLast ++ [j]) * Hadamard.matrix l.order (idx.getLastD 0) j : ℤ) : K) * (q.scale.data [] / l.norm sqrt q.value) := by
          apply List.map_congr_left
          intro j hj
          have := (hq.codes _ (hin idx hi j (List.mem_range.mp hj))).1
          rw [this, hps, hpz, bcIndex_nil, hz]
          push_cast
          ring
        rw [e, List.sum_map_mul_right]
        push_cast
        rw [List.map_map]
        simp only [Function.comp_def]
        push_cast
        ring
      · refine hadamard_width hb hC _ ?_
        rw [abs_neg]
        have := sum_abs_le (l := List.range l.inChannels) (f := fun j => n (idx.dropLast ++ [j]) * Hadamard.matrix l.order (idx.getLastD 0) j) (M := 2 ^ (q.bitWidth - 1) - 1) (by
          intro j hj
          rw [abs_mul]
          have h1 := hn _ (hin idx hi j (List.mem_range.mp hj))
          rcases C106_entries l.order (idx.getLastD 0) j with h | h <;> rw [h] <;> simpa using h1)
        simpa using this

/-- C106, values: whatever the container, what is returned holds `-scale / norm` times the product of the Hadamard matrix with the values of the input. -/
theorem C106_values (l : Hadamard.Layer K) (sqrt : K → K) (q r : ShapedQT K) (pre : List ℕ) (hshape : q.value.shape = pre ++ [l.inChannels])
    (h : l.forward sqrt (.quant q) = .ok (.quant r)) :
    r.value.shape = pre ++ [l.outChannels] ∧ ∀ idx o, InBounds r.value.shape (idx ++ [o]) →
      r.value.data (idx ++ [o]) = -l.scale / l.norm sqrt q.value * ((List.range l.inChannels).map fun j => (Hadamard.matrix l.order o j : K) * q.value.data (idx ++ [j])).sum := by
  have hval : l.value sqrt q.value = some ⟨pre ++ [l.outChannels], fun idx =>
      -l.scale * ((List.range l.inChannels).map fun j => q.value.data (idx.dropLast ++ [j]) / l.norm sqrt q.value * (Hadamard.matrix l.order (idx.getLastD 0) j : K)).sum⟩ := by
    unfold Hadamard.Layer.value
    rw [hshape, if_pos ⟨by simp, by simp⟩, List.dropLast_concat]
  unfold Hadamard.Layer.forward at h
  simp only [hval, torchOp, Except.bind] at h
  cases hb : bcOp (fun s n => s * l.scale / n) q.scale ⟨List.replicate q.value.shape.length 1, fun _ => l.norm sqrt q.value⟩ with
  | none => rw [hb] at h; cases h
  | some s =>
    rw [hb] at h
    simp only at h
    split_ifs at h
    have e := LayerOut.quant.inj (Except.ok.inj h)
    subst e
    refine ⟨rfl, fun idx o _ => ?_⟩
    simp only [List.dropLast_concat, List.getLastD_concat]
    rw [← List.sum_map_mul_left, ← List.sum_map_mul_left]
    congr 1
    apply List.map_congr_left
    intro j _
    ring

/-! ### Where C106 fails -/

/-- C106 fails for a layer made with the default `return_quant_tensor=False`: it raises for every input (line 55 calls `any` of `False`). -/
theorem C106_default_raises (l : Hadamard.Layer K) (sqrt : K → K) (hl : l.returnQuantTensor = false) (inp : LayerOut K) : ∃ e, l.forward sqrt inp = .error e := by
  cases inp with
  | plain x => exact ⟨_, rfl⟩
  | quant q =>
    unfold Hadamard.Layer.forward
    simp only [hl, Bool.false_eq_true, if_false]
    cases h1 : torchOp (l.value sqrt q.value) with
    | error e => exact ⟨e, rfl⟩
    | ok v =>
      simp only [Except.bind]
      cases h2 : torchOp (bcOp (fun s n => s * l.scale / n) q.scale ⟨List.replicate q.value.shape.length 1, fun _ => l.norm sqrt q.value⟩) with
      | error e => exact ⟨e, rfl⟩
      | ok s => exact ⟨_, rfl⟩

/-- C106 fails for plain tensors. -/
theorem C106_plain_input_raises (l : Hadamard.Layer K) (sqrt : K → K) (x : NdTensor K) : l.forward sqrt (.plain x) = .error .other := rfl

/-- A classifier of two features in two classes. The norms below are 1 on purpose: any square root will do. -/
def Sample.hadamard : Hadamard.Layer ℚ := ⟨2, 2, 1, 1, true, false⟩

/-- Two features. -/
def Sample.features (a b : ℚ) : NdTensor ℚ := ⟨[1, 2], fun idx => [a, b].getD (idx.getD 1 0) 0⟩

/-- C106 fails for unsigned inputs: the declared width leaves no room for the sign. Two 8 bit features of 255 have a sum of 510, of which the negated value is declared to be a signed
number of 9 bits. -/
theorem C106_unsigned_overflows :
    Sample.show (Sample.hadamard.forward (fun _ => 0) (.quant ⟨Sample.features 255 255, scalarTensor 1, scalarTensor 0, 8, false, false⟩)) = some ([1, 2], [-510, 0], 9, some false) := by
  decide +kernel

/-- C106 fails for the most negative code: two 8 bit features of -128 have the sum -256, of which the negated value does not fit 9 bits. -/
theorem C106_most_negative_overflows :
    Sample.show (Sample.hadamard.forward (fun _ => 0) (.quant ⟨Sample.features (-128) (-128), scalarTensor 1, scalarTensor 0, 8, true, false⟩)) = some ([1, 2], [256, 0], 9, some false) := by
  decide +kernel

/-! ### Examples -/

example : (⟨3, 5, 1, 1, true, false⟩ : Hadamard.Layer ℚ).order = 3 := by decide +kernel

example : Sample.show (Sample.hadamard.forward (fun _ => 0) (.quant ⟨Sample.features 1 2, scalarTensor 1, scalarTensor 3, 8, false, false⟩)) = none := by decide +kernel

example : ∀ v : ℝ, 0 ≤ v → 0 ≤ Real.sqrt v ∧ Real.sqrt v * Real.sqrt v = v := fun _ h => ⟨Real.sqrt_nonneg _, Real.mul_self_sqrt h⟩

example : Sample.show (Sample.hadamard.forward (fun _ => 0) (.quant ⟨Sample.features (-127) 100, scalarTensor 1, scalarTensor 0, 8, true, false⟩)) = some ([1, 2], [27, 227], 9, some true) := by
  decide +kernel

example : (List.range 4).map (fun i => (List.range 4).map (Hadamard.matrix 2 i)) = [[1, 1, 1, 1], [1, -1, 1, -1], [1, 1, -1, -1], [1, -1, -1, 1]] := by decide +kernel

/-- The hypotheses of `C106_codes_partial`. -/
example : ∃ q : ShapedQT ℚ, HoldsCodes q (fun idx => [-127, 100].getD (idx.getD 1 0) 0) ∧ PerTensor q ∧ q.zeroPoint.data [] = 0 ∧ 2 ≤ q.bitWidth ∧ q.value.shape = [1] ++ [2] := by
  refine ⟨⟨Sample.features (-127) 100, scalarTensor 1, scalarTensor 0, 8, true, false⟩, ⟨broadcasts_nil _, broadcasts_nil _, fun _ _ => by simp [scalarTensor], ?_⟩, ⟨rfl, rfl⟩, rfl, by decide, rfl⟩
  intro idx hi
  have hi' : idx ∈ indices [1, 2] := (mem_indices _ _).mpr hi
  have hall : ∀ idx ∈ indices [1, 2], (Sample.features (-127) 100).data idx = ((([-127, 100] : List ℤ).getD (idx.getD 1 0) 0 : ℚ) - 0) * 1 ∧
      Spec.lo true false 8 ≤ ([-127, 100] : List ℤ).getD (idx.getD 1 0) 0 ∧ ([-127, 100] : List ℤ).getD (idx.getD 1 0) 0 ≤ Spec.hi true false 8 := by decide +kernel
  exact hall idx hi'

end Brevitas.Props
