import Verif.Spec.MhaReference
import Mathlib.Tactic.Ring
import Mathlib.Tactic.Linarith
import Mathlib.Tactic.SplitIfs

/-!
# Lemmas about attention on shaped tensors
-/

namespace Brevitas.Mha

open Finset NdTensor

/-- A tensor with three dimensions and given elements. -/
def Is {K : Type*} (x : NdTensor K) (a b c : ℕ) (f : ℕ → ℕ → ℕ → K) : Prop :=
  x.shape = [a, b, c] ∧ ∀ i < a, ∀ j < b, ∀ k < c, x.data [i, j, k] = f i j k

theorem Is.congr {K : Type*} {x : NdTensor K} {a b c : ℕ} {f g : ℕ → ℕ → ℕ → K} (h : Is x a b c f)
    (hfg : ∀ i < a, ∀ j < b, ∀ k < c, f i j k = g i j k) : Is x a b c g :=
  ⟨h.1, fun i hi j hj k hk => (h.2 i hi j hj k hk).trans (hfg i hi j hj k hk)⟩

theorem Is.map {K : Type*} {x : NdTensor K} {a b c : ℕ} {f : ℕ → ℕ → ℕ → K} (h : Is x a b c f) (g : K → K) :
    Is (x.map g) a b c (fun i j k => g (f i j k)) :=
  ⟨h.1, fun i hi j hj k hk => congrArg g (h.2 i hi j hj k hk)⟩

theorem divmod_pos {n a b : ℕ} (hb : b < n) : (a * n + b) / n = a ∧ (a * n + b) % n = b := by
  have hn : 0 < n := by omega
  constructor
  · rw [mul_comm, Nat.mul_add_div hn, Nat.div_eq_of_lt hb, Nat.add_zero]
  · rw [mul_comm, Nat.mul_add_mod, Nat.mod_eq_of_lt hb]

theorem row_lt {b h n j : ℕ} (hn : n < b) (hj : j < h) : n * h + j < b * h := by
  calc n * h + j < n * h + h := by omega
    _ = (n + 1) * h := by ring
    _ ≤ b * h := Nat.mul_le_mul_right _ hn

theorem ravel3 (a b c i j k : ℕ) : Spec.ravel [a, b, c] [i, j, k] = i * (b * c) + (j * c + k) := by
  simp [Spec.ravel]; ring

theorem fromPosition3 {a b c i j k : ℕ} (hj : j < b) (hk : k < c) : fromPosition [a, b, c] (i * (b * c) + (j * c + k)) = [i, j, k] := by
  have h1 : j * c + k < b * c := row_lt hj hk
  simp only [fromPosition, List.prod_cons, List.prod_nil, mul_one, Nat.div_one]
  rw [(divmod_pos h1).1, (divmod_pos h1).2, (divmod_pos hk).1, (divmod_pos hk).2]

/-- Reading heads out of the last dimension. -/
theorem Is.split {x : NdTensor ℝ} {T B H D : ℕ} {f : ℕ → ℕ → ℕ → ℝ} (h : Is x T B (H * D) f) :
    ∃ y, splitHeads B H D x = some y ∧ Is y (B * H) T D (fun r t d => f t (r / H) (r % H * D + d)) := by
  obtain ⟨hs, hd⟩ := h
  have h1 : x.reshape [T, B * H, D] =
      some ⟨[T, B * H, D], fun idx => x.data (fromPosition x.shape (Spec.ravel [T, B * H, D] idx))⟩ := by
    unfold reshape
    rw [if_pos]
    rw [hs]
    simp [mul_assoc]
  refine ⟨⟨[B * H, T, D], fun idx => x.data (fromPosition x.shape (Spec.ravel [T, B * H, D] (unorder [1, 0, 2] idx)))⟩, ?_, rfl, ?_⟩
  · unfold splitHeads
    rw [show x.shape.getD 0 0 = T by rw [hs]; rfl, h1]
    show NdTensor.transpose 0 1 _ = _
    unfold NdTensor.transpose
    rw [if_pos (by simp)]
    unfold permute
    exact if_pos (show (swapDims 3 0 1).Perm (List.range 3) by decide)
  · intro r hr t ht d hd'
    show x.data (fromPosition x.shape (Spec.ravel [T, B * H, D] (unorder [1, 0, 2] [r, t, d]))) = _
    have hH : 0 < H := by
      rcases Nat.eq_zero_or_pos H with h0 | h0
      · subst h0; simp at hr
      · exact h0
    have hrB : r / H < B := Nat.div_lt_of_lt_mul (by rw [mul_comm]; exact hr)
    have hcol : r % H * D + d < H * D := row_lt (Nat.mod_lt _ hH) hd'
    rw [show unorder [1, 0, 2] [r, t, d] = [t, r, d] from rfl, ravel3, hs]
    have hp : t * (B * H * D) + (r * D + d) = t * (B * (H * D)) + (r / H * (H * D) + (r % H * D + d)) := by
      have := Nat.div_add_mod r H
      calc t * (B * H * D) + (r * D + d) = t * (B * H * D) + ((H * (r / H) + r % H) * D + d) := by rw [this]
        _ = _ := by ring
    rw [hp, fromPosition3 hrB hcol]
    exact hd t ht (r / H) hrB _ hcol

theorem Is.transpose01 {K : Type*} {x : NdTensor K} {a b c : ℕ} {f : ℕ → ℕ → ℕ → K} (h : Is x a b c f) :
    ∃ y, x.transpose 0 1 = some y ∧ Is y b a c (fun i j k => f j i k) := by
  obtain ⟨hs, hd⟩ := h
  refine ⟨⟨[b, a, c], fun idx => x.data (unorder [1, 0, 2] idx)⟩, ?_, rfl, ?_⟩
  · unfold NdTensor.transpose
    rw [hs, if_pos (by simp)]
    unfold permute
    rw [hs]
    exact if_pos (show (swapDims 3 0 1).Perm (List.range 3) by decide)
  · intro i hi j hj k hk
    exact hd j hj i hi k hk

theorem Is.transpose10 {K : Type*} {x : NdTensor K} {a b c : ℕ} {f : ℕ → ℕ → ℕ → K} (h : Is x a b c f) :
    ∃ y, x.transpose 1 0 = some y ∧ Is y b a c (fun i j k => f j i k) := by
  obtain ⟨hs, hd⟩ := h
  refine ⟨⟨[b, a, c], fun idx => x.data (unorder [1, 0, 2] idx)⟩, ?_, rfl, ?_⟩
  · unfold NdTensor.transpose
    rw [hs, if_pos (by simp)]
    unfold permute
    rw [hs]
    exact if_pos (show (swapDims 3 1 0).Perm (List.range 3) by decide)
  · intro i hi j hj k hk
    exact hd j hj i hi k hk

theorem Is.transpose12 {K : Type*} {x : NdTensor K} {a b c : ℕ} {f : ℕ → ℕ → ℕ → K} (h : Is x a b c f) :
    ∃ y, x.transpose 1 2 = some y ∧ Is y a c b (fun i j k => f i k j) := by
  obtain ⟨hs, hd⟩ := h
  refine ⟨⟨[a, c, b], fun idx => x.data (unorder [0, 2, 1] idx)⟩, ?_, rfl, ?_⟩
  · unfold NdTensor.transpose
    rw [hs, if_pos (by simp)]
    unfold permute
    rw [hs]
    exact if_pos (show (swapDims 3 1 2).Perm (List.range 3) by decide)
  · intro i hi j hj k hk
    exact hd i hi k hk j hj

/-- Heads side by side again. -/
theorem Is.mergeHeads {x : NdTensor ℝ} {T B H D : ℕ} {f : ℕ → ℕ → ℕ → ℝ} (h : Is x T (B * H) D f) :
    ∃ y, x.reshape [T, B, H * D] = some y ∧ Is y T B (H * D) (fun t n e => f t (n * H + e / D) (e % D)) := by
  obtain ⟨hs, hd⟩ := h
  refine ⟨⟨[T, B, H * D], fun idx => x.data (fromPosition x.shape (Spec.ravel [T, B, H * D] idx))⟩, ?_, rfl, ?_⟩
  · unfold reshape
    rw [if_pos]
    rw [hs]; simp [mul_assoc]
  · intro t ht n hn e he
    show x.data (fromPosition x.shape (Spec.ravel [T, B, H * D] [t, n, e])) = _
    have hD : 0 < D := by
      rcases Nat.eq_zero_or_pos D with h0 | h0
      · subst h0; simp at he
      · exact h0
    have hh : e / D < H := Nat.div_lt_of_lt_mul (by rw [mul_comm]; exact he)
    have hr : n * H + e / D < B * H := row_lt hn hh
    rw [ravel3, hs]
    have hp : t * (B * (H * D)) + (n * (H * D) + e) = t * (B * H * D) + ((n * H + e / D) * D + e % D) := by
      have := Nat.div_add_mod e D
      calc t * (B * (H * D)) + (n * (H * D) + e) = t * (B * (H * D)) + (n * (H * D) + (D * (e / D) + e % D)) := by rw [this]
        _ = _ := by ring
    rw [hp, fromPosition3 hr (Nat.mod_lt _ hD)]
    exact hd t ht _ hr _ (Nat.mod_lt _ hD)

theorem Is.linear {x : NdTensor ℝ} {a b c : ℕ} {f : ℕ → ℕ → ℕ → ℝ} (h : Is x a b c f) (L : Linear) (hL : L.inFeatures = c) :
    ∃ y, L.forward x = some y ∧ Is y a b L.outFeatures (fun i j o => L.row (f i j) o) := by
  obtain ⟨hs, hd⟩ := h
  refine ⟨⟨[a, b, L.outFeatures], fun idx => L.row (fun i => x.data [idx.getD 0 0, idx.getD 1 0, i]) (idx.getD 2 0)⟩, ?_, rfl, ?_⟩
  · unfold Linear.forward
    rw [hs]
    exact if_pos hL.symm
  · intro i hi j hj o ho
    show L.row (fun k => x.data [i, j, k]) o = L.row (f i j) o
    unfold Linear.row
    congr 2
    refine Finset.sum_congr rfl fun k hk => ?_
    show L.w o k * L.inQ (x.data [i, j, k]) = _
    rw [hd i hi j hj k (hL ▸ Finset.mem_range.mp hk)]

theorem Is.chunk {x : NdTensor ℝ} {a b e : ℕ} {f : ℕ → ℕ → ℕ → ℝ} (h : Is x a b (3 * e) f) {i : ℕ} (hi : i < 3) :
    Is (chunk3 i x) a b e (fun t n k => f t n (i * e + k)) := by
  obtain ⟨hs, hd⟩ := h
  have hsz : (x.shape.getD 2 0 + 2) / 3 = e := by rw [hs]; show (3 * e + 2) / 3 = e; omega
  refine ⟨?_, ?_⟩
  · show x.shape.set 2 ((x.shape.getD 2 0 + 2) / 3) = _
    rw [hsz, hs]; rfl
  · intro t ht n hn k hk
    show x.data [t, n, i * ((x.shape.getD 2 0 + 2) / 3) + k] = _
    rw [hsz]
    refine hd t ht n hn _ ?_
    rw [Nat.add_comm]
    calc k + i * e < e + i * e := by omega
      _ = (i + 1) * e := by ring
      _ ≤ 3 * e := Nat.mul_le_mul_right _ hi

/-- One more position along the first dimension. -/
theorem Is.cat0 {x y : NdTensor ℝ} {a b c : ℕ} {f : ℕ → ℕ → ℕ → ℝ} {g : ℕ → ℕ → ℝ} (h : Is x a b c f)
    (hy : Is y 1 b c (fun _ j k => g j k)) :
    ∃ z, NdTensor.cat 0 [x, y] = some z ∧ Is z (a + 1) b c (fun i j k => if i < a then f i j k else g j k) := by
  obtain ⟨hs, hd⟩ := h
  obtain ⟨hs', hd'⟩ := hy
  refine ⟨⟨[a + 1, b, c], fun idx => if InBounds [a + 1, b, c] idx then pick 0 [x, y] idx (idx.getD 0 0) else 0⟩, ?_, rfl, ?_⟩
  · have hdim : dimOf x.shape.length 0 = some 0 := by rw [hs]; rfl
    unfold NdTensor.cat
    simp only [hdim]
    rw [if_pos (by
      intro u hu
      simp only [List.mem_cons, List.not_mem_nil, or_false] at hu
      rcases hu with rfl | rfl <;> simp [hs, hs'])]
    simp [NdTensor.size, hs, hs']
  · intro i hi j hj k hk
    show (if InBounds [a + 1, b, c] [i, j, k] then pick 0 [x, y] [i, j, k] i else 0) = _
    rw [if_pos (by simp [InBounds]; omega)]
    have hx : x.size 0 = a := by simp [NdTensor.size, hs]
    have hy' : y.size 0 = 1 := by simp [NdTensor.size, hs']
    simp only [pick, hx, hy']
    by_cases hia : i < a
    · rw [if_pos hia, if_pos hia]; exact hd i hia j hj k hk
    · rw [if_neg hia, if_neg hia, if_pos (by omega)]
      exact hd' (i - a) (by omega) j hj k hk

/-- One more position along the second dimension. -/
theorem Is.cat1 {x y : NdTensor ℝ} {a b c : ℕ} {f : ℕ → ℕ → ℕ → ℝ} {g : ℕ → ℕ → ℝ} (h : Is x a b c f)
    (hy : Is y a 1 c (fun i _ k => g i k)) :
    ∃ z, NdTensor.cat 1 [x, y] = some z ∧ Is z a (b + 1) c (fun i j k => if j < b then f i j k else g i k) := by
  obtain ⟨hs, hd⟩ := h
  obtain ⟨hs', hd'⟩ := hy
  refine ⟨⟨[a, b + 1, c], fun idx => if InBounds [a, b + 1, c] idx then pick 1 [x, y] idx (idx.getD 1 0) else 0⟩, ?_, rfl, ?_⟩
  · have hdim : dimOf x.shape.length 1 = some 1 := by rw [hs]; rfl
    unfold NdTensor.cat
    simp only [hdim]
    rw [if_pos (by
      intro u hu
      simp only [List.mem_cons, List.not_mem_nil, or_false] at hu
      rcases hu with rfl | rfl <;> simp [hs, hs'])]
    simp [NdTensor.size, hs, hs']
  · intro i hi j hj k hk
    show (if InBounds [a, b + 1, c] [i, j, k] then pick 1 [x, y] [i, j, k] j else 0) = _
    rw [if_pos (by simp [InBounds]; omega)]
    have hx : x.size 1 = b := by simp [NdTensor.size, hs]
    have hy' : y.size 1 = 1 := by simp [NdTensor.size, hs']
    simp only [pick, hx, hy']
    by_cases hia : j < b
    · rw [if_pos hia, if_pos hia]; exact hd i hi j hia k hk
    · rw [if_neg hia, if_neg hia, if_pos (by omega)]
      exact hd' i hi (j - b) (by omega) k hk

theorem Is.bmm {x y : NdTensor ℝ} {p n m l : ℕ} {f g : ℕ → ℕ → ℕ → ℝ} (hx : Is x p n m f) (hy : Is y p m l g) :
    ∃ z, Mha.bmm x y = some z ∧ Is z p n l (fun r i j => ∑ k ∈ range m, f r i k * g r k j) := by
  obtain ⟨hs, hd⟩ := hx
  obtain ⟨hs', hd'⟩ := hy
  refine ⟨⟨[p, n, l], fun idx => ∑ i ∈ range m, x.data [idx.getD 0 0, idx.getD 1 0, i] * y.data [idx.getD 0 0, i, idx.getD 2 0]⟩, ?_, rfl, ?_⟩
  · unfold Mha.bmm
    rw [hs, hs']
    exact if_pos ⟨rfl, rfl⟩
  · intro r hr i hi j hj
    show (∑ k ∈ range m, x.data [r, i, k] * y.data [r, k, j] : ℝ) = _
    refine Finset.sum_congr rfl fun k hk => ?_
    have hk := Finset.mem_range.mp hk
    rw [hd r hr i hi k hk, hd' r hr k hk j hj]

theorem Is.softmax {x : NdTensor (WithBot ℝ)} {a b c : ℕ} {f : ℕ → ℕ → ℕ → WithBot ℝ} (h : Is x a b c f) :
    Is (softmaxLast x) a b c (fun i j k => Spec.softmax c (f i j) k) := by
  obtain ⟨hs, hd⟩ := h
  refine ⟨hs, ?_⟩
  intro i hi j hj k hk
  show Spec.softmax (x.shape.getD 2 0) (fun s => x.data [i, j, s]) k = _
  rw [show x.shape.getD 2 0 = c by rw [hs]; rfl]
  show Spec.expScore (x.data [i, j, k]) / (∑ s' ∈ range c, Spec.expScore (x.data [i, j, s'])) =
    Spec.expScore (f i j k) / (∑ s' ∈ range c, Spec.expScore (f i j s'))
  rw [hd i hi j hj k hk]
  congr 1
  refine Finset.sum_congr rfl fun s hs => ?_
  rw [hd i hi j hj s (Finset.mem_range.mp hs)]

/-- A mask that, broadcast to `[R, T, S]`, adds given values. -/
def MaskIs (m : Mask) (R T S : ℕ) (g : ℕ → ℕ → ℕ → WithBot ℝ) : Prop :=
  ∃ a b, m.shape = [a, b, S] ∧ (a = 1 ∨ a = R) ∧ (b = 1 ∨ b = T) ∧
    ∀ r < R, ∀ t < T, ∀ s < S, m.toFloat.data [if a = 1 then 0 else r, if b = 1 then 0 else t, s] = g r t s

theorem toFloat_shape (m : Mask) : m.toFloat.shape = m.shape := by cases m <;> rfl

theorem MaskIs.pad {m : Mask} {R T S : ℕ} {g : ℕ → ℕ → ℕ → WithBot ℝ} (h : MaskIs m R T S g) :
    MaskIs m.padColumn R T (S + 1) (fun r t s => if s < S then g r t s else 0) := by
  obtain ⟨a, b, hs, ha, hb, hd⟩ := h
  refine ⟨a, b, ?_, ha, hb, ?_⟩
  · cases m <;>
    · simp only [Mask.shape] at hs
      simp [Mask.padColumn, Mask.shape, Mha.padColumn, hs]
  · intro r hr t ht s hs'
    have hd := hd r hr t ht s
    cases m <;>
    · simp only [Mask.shape] at hs
      simp only [Mask.padColumn, Mask.toFloat, Mha.padColumn, hs, List.length_cons, List.length_nil] at hd ⊢
      simp only [List.getD_eq_getElem?_getD, Nat.reduceAdd, Nat.reduceSub, List.getElem?_cons_succ, List.getElem?_cons_zero, Option.getD_some]
      by_cases hsS : s < S
      · simp only [if_pos hsS]; exact hd hsS
      · simp [if_neg hsS]

theorem bcSize_one_left (b : ℕ) : bcSize 1 b = some b := by
  unfold bcSize
  by_cases h : 1 = b
  · rw [if_pos h, h]
  · rw [if_neg h, if_pos rfl]

theorem bcSize_self (b : ℕ) : bcSize b b = some b := if_pos rfl

theorem bcSize_one_right (b : ℕ) : bcSize b 1 = some b := by
  unfold bcSize
  by_cases h : b = 1
  · rw [if_pos h]
  · rw [if_neg h, if_neg h, if_pos rfl]

theorem bcSize_or {a b : ℕ} (h : a = 1 ∨ a = b) : bcSize a b = some b := by
  rcases h with rfl | rfl
  · exact bcSize_one_left b
  · exact bcSize_self a

theorem bcShape3 (a b c a' b' c' : ℕ) : bcShape [a, b, c] [a', b', c'] =
    (bcSize a a').bind fun x => ((bcSize b b').bind fun y => (bcSize c c').map fun z => [y, z]).map fun l => x :: l := by
  show bcSizes [a, b, c] [a', b', c'] = _
  simp only [bcSizes]
  cases bcSize a a' <;> cases bcSize b b' <;> cases bcSize c c' <;> rfl

theorem bcIndex3 (a b c i j k : ℕ) :
    bcIndex [a, b, c] [i, j, k] = [if a = 1 then 0 else i, if b = 1 then 0 else j, if c = 1 then 0 else k] := rfl

theorem ite_one {S s : ℕ} (h : s < S) : (if S = 1 then 0 else s) = s := by
  split_ifs <;> omega

theorem MaskIs.expand {m : Mask} {R T S : ℕ} {g : ℕ → ℕ → ℕ → WithBot ℝ} (h : MaskIs m R T S g) :
    ∃ y, Mha.expand [R, T, S] m.toFloat = some y ∧ Is y R T S g := by
  obtain ⟨a, b, hs, ha, hb, hd⟩ := h
  refine ⟨⟨[R, T, S], fun idx => m.toFloat.data (bcIndex m.toFloat.shape idx)⟩, ?_, rfl, ?_⟩
  · unfold Mha.expand
    rw [if_pos]
    rw [toFloat_shape, hs, bcShape3, bcSize_or ha, bcSize_or hb, bcSize_self]
    rfl
  · intro r hr t ht s hs'
    show m.toFloat.data (bcIndex m.toFloat.shape [r, t, s]) = _
    rw [toFloat_shape, hs, bcIndex3, ite_one hs']
    exact hd r hr t ht s hs'

/-- The mask of the attention, none of them being zeros. -/
def AttnIs (m : Option Mask) (R T S : ℕ) (g : ℕ → ℕ → ℕ → WithBot ℝ) : Prop :=
  match m with
  | none => ∀ r < R, ∀ t < T, ∀ s < S, g r t s = 0
  | some m => MaskIs m R T S g

/-- The padding mask, none of them being zeros. -/
def PadIs (m : Option Mask) (B S : ℕ) (g : ℕ → ℕ → WithBot ℝ) : Prop :=
  match m with
  | none => ∀ n < B, ∀ s < S, g n s = 0
  | some m => m.shape = [B, S] ∧ ∀ n < B, ∀ s < S, m.toFloat.data [n, s] = g n s

theorem MaskIs.congr {m : Mask} {R T S : ℕ} {f g : ℕ → ℕ → ℕ → WithBot ℝ} (h : MaskIs m R T S f)
    (hfg : ∀ r < R, ∀ t < T, ∀ s < S, f r t s = g r t s) : MaskIs m R T S g := by
  obtain ⟨a, b, hs, ha, hb, hd⟩ := h
  exact ⟨a, b, hs, ha, hb, fun r hr t ht s hs' => (hd r hr t ht s hs').trans (hfg r hr t ht s hs')⟩

theorem AttnIs.congr {m : Option Mask} {R T S : ℕ} {f g : ℕ → ℕ → ℕ → WithBot ℝ} (h : AttnIs m R T S f)
    (hfg : ∀ r < R, ∀ t < T, ∀ s < S, f r t s = g r t s) : AttnIs m R T S g := by
  cases m with
  | none => exact fun r hr t ht s hs => (hfg r hr t ht s hs).symm.trans (h r hr t ht s hs)
  | some m => exact MaskIs.congr h hfg

theorem AttnIs.pad {m : Option Mask} {R T S : ℕ} {g : ℕ → ℕ → ℕ → WithBot ℝ} (h : AttnIs m R T S g) :
    AttnIs (m.map Mask.padColumn) R T (S + 1) (fun r t s => if s < S then g r t s else 0) := by
  cases m with
  | none =>
    intro r hr t ht s hs
    show (if s < S then g r t s else 0) = 0
    by_cases h' : s < S
    · rw [if_pos h']; exact h r hr t ht s h'
    · exact if_neg h'
  | some m => exact MaskIs.pad h

theorem PadIs.pad {m : Option Mask} {B S : ℕ} {g : ℕ → ℕ → WithBot ℝ} (h : PadIs m B S g) :
    PadIs (m.map Mask.padColumn) B (S + 1) (fun n s => if s < S then g n s else 0) := by
  cases m with
  | none =>
    intro n hn s hs
    show (if s < S then g n s else 0) = 0
    by_cases h' : s < S
    · rw [if_pos h']; exact h n hn s h'
    · exact if_neg h'
  | some m =>
    obtain ⟨hs, hd⟩ := h
    refine ⟨?_, ?_⟩
    · cases m <;>
      · simp only [Mask.shape] at hs
        simp [Mask.padColumn, Mask.shape, Mha.padColumn, hs]
    · intro n hn s hs'
      have hd := hd n hn s
      cases m <;>
      · simp only [Mask.shape] at hs
        simp only [Mask.padColumn, Mask.toFloat, Mha.padColumn, hs, List.length_cons, List.length_nil] at hd ⊢
        simp only [List.getD_eq_getElem?_getD, Nat.reduceAdd, Nat.reduceSub, List.getElem?_cons_succ, List.getElem?_cons_zero,
          Option.getD_some]
        by_cases hsS : s < S
        · simp only [if_pos hsS]; exact hd hsS
        · simp [if_neg hsS]

theorem prep2 {m : Mask} {B H T S : ℕ} (hs : m.shape = [T, S]) :
    ∃ m', prepMask B H T S m = some m' ∧ MaskIs m' (B * H) T S (fun _ t s => m.toFloat.data [t, s]) := by
  unfold prepMask
  rw [if_pos (by rw [hs]; rfl), if_pos hs]
  have aux : ∀ {t T : ℕ}, t < T → (if T = 1 then 0 else t) = t := fun h => ite_one h
  cases m with
  | bool u =>
    refine ⟨.bool (unsqueeze 0 u), rfl, 1, T, ?_, Or.inl rfl, Or.inr rfl, ?_⟩
    · show (1 :: u.shape) = _
      rw [show u.shape = [T, S] from hs]
    · intro r hr t ht s hs'
      rw [aux ht]; rfl
  | float u =>
    refine ⟨.float (unsqueeze 0 u), rfl, 1, T, ?_, Or.inl rfl, Or.inr rfl, ?_⟩
    · show (1 :: u.shape) = _
      rw [show u.shape = [T, S] from hs]
    · intro r hr t ht s hs'
      rw [aux ht]; rfl

theorem prep3 {m : Mask} {B H T S : ℕ} (hs : m.shape = [B * H, T, S]) :
    ∃ m', prepMask B H T S m = some m' ∧ MaskIs m' (B * H) T S (fun r t s => m.toFloat.data [r, t, s]) := by
  unfold prepMask
  rw [if_neg (by rw [hs]; simp), if_pos (by rw [hs]; rfl), if_pos hs]
  refine ⟨m, rfl, B * H, T, hs, Or.inr rfl, Or.inr rfl, ?_⟩
  intro r hr t ht s hs'
  rw [ite_one hr, ite_one ht]

/-- The padding mask of one row, for any of the two kinds. -/
theorem padTensor {K : Type} {u : NdTensor K} {B H S : ℕ} (hs : u.shape = [B, S]) :
    ∃ v, (((u.reshape [B, 1, 1, S]).bind (Mha.expand [B, H, 1, S])).bind fun t => t.reshape [B * H, 1, S]) = some v ∧
      v.shape = [B * H, 1, S] ∧ ∀ r < B * H, ∀ s < S, v.data [r, 0, s] = u.data [r / H, s] := by
  have h1 : u.reshape [B, 1, 1, S] = some ⟨[B, 1, 1, S], fun idx => u.data (fromPosition u.shape (Spec.ravel [B, 1, 1, S] idx))⟩ := by
    unfold reshape
    rw [if_pos]
    rw [hs]; simp
  have h2 : Mha.expand [B, H, 1, S] (⟨[B, 1, 1, S], fun idx => u.data (fromPosition u.shape (Spec.ravel [B, 1, 1, S] idx))⟩ : NdTensor K) =
      some ⟨[B, H, 1, S], fun idx => u.data (fromPosition u.shape (Spec.ravel [B, 1, 1, S] (bcIndex [B, 1, 1, S] idx)))⟩ := by
    unfold Mha.expand
    rw [if_pos]
    show bcSizes [B, 1, 1, S] [B, H, 1, S] = _
    simp [bcSizes, bcSize_self, bcSize_one_left]
  rw [h1, Option.bind_some, h2, Option.bind_some]
  refine ⟨⟨[B * H, 1, S], fun idx => u.data (fromPosition u.shape (Spec.ravel [B, 1, 1, S] (bcIndex [B, 1, 1, S]
    (fromPosition [B, H, 1, S] (Spec.ravel [B * H, 1, S] idx)))))⟩, ?_, rfl, ?_⟩
  · unfold reshape
    rw [if_pos]
    simp [mul_assoc]
  · intro r hr s hs'
    have hH : 0 < H := by
      rcases Nat.eq_zero_or_pos H with h0 | h0
      · subst h0; simp at hr
      · exact h0
    have hrB : r / H < B := Nat.div_lt_of_lt_mul (by rw [mul_comm]; exact hr)
    show u.data (fromPosition u.shape (Spec.ravel [B, 1, 1, S] (bcIndex [B, 1, 1, S]
      (fromPosition [B, H, 1, S] (Spec.ravel [B * H, 1, S] [r, 0, s]))))) = _
    have e1 : Spec.ravel [B * H, 1, S] [r, 0, s] = r / H * (H * S) + (r % H * S + s) := by
      rw [ravel3]
      have := Nat.div_add_mod r H
      calc r * (1 * S) + (0 * S + s) = (H * (r / H) + r % H) * S + s := by rw [this]; ring
        _ = _ := by ring
    have e2 : fromPosition [B, H, 1, S] (r / H * (H * S) + (r % H * S + s)) = [r / H, r % H, 0, s] := by
      have hlt : r % H * S + s < H * S := row_lt (Nat.mod_lt _ hH) hs'
      simp only [fromPosition, List.prod_cons, List.prod_nil, mul_one, one_mul, Nat.div_one]
      rw [(divmod_pos hlt).1, (divmod_pos hlt).2, (divmod_pos hs').1, (divmod_pos hs').2, Nat.div_eq_of_lt hs', Nat.mod_eq_of_lt hs']
    have e3 : bcIndex [B, 1, 1, S] [r / H, r % H, 0, s] = [r / H, 0, 0, s] := by
      show [if B = 1 then 0 else r / H, if 1 = 1 then 0 else r % H, if 1 = 1 then 0 else 0, if S = 1 then 0 else s] = _
      rw [ite_one hrB, ite_one hs']
      rfl
    have e4 : Spec.ravel [B, 1, 1, S] [r / H, 0, 0, s] = r / H * S + s := by simp [Spec.ravel]
    have e5 : fromPosition [B, S] (r / H * S + s) = [r / H, s] := by
      simp only [fromPosition, List.prod_cons, List.prod_nil, mul_one, Nat.div_one]
      rw [(divmod_pos hs').1, (divmod_pos hs').2]
    rw [e1, e2, e3, e4, hs, e5]

theorem padMask_spec {m : Mask} {B H T S : ℕ} (hs : m.shape = [B, S]) :
    ∃ m', padMask B H S m = some m' ∧ (∀ u, m = .bool u → ∃ u', m' = .bool u') ∧
      MaskIs m' (B * H) T S (fun r _ s => m.toFloat.data [r / H, s]) := by
  unfold padMask
  rw [if_pos hs]
  cases m with
  | bool u =>
    obtain ⟨v, hv, hvs, hvd⟩ := padTensor (u := u) (H := H) hs
    refine ⟨.bool v, ?_, fun _ _ => ⟨v, rfl⟩, B * H, 1, hvs, Or.inr rfl, Or.inl rfl, ?_⟩
    · exact congrArg (Option.map Mask.bool) hv
    · intro r hr t ht s hs'
      rw [ite_one hr, if_pos rfl]
      show (if v.data [r, 0, s] = true then (⊥ : WithBot ℝ) else 0) = if u.data [r / H, s] = true then ⊥ else 0
      rw [hvd r hr s hs']
  | float u =>
    obtain ⟨v, hv, hvs, hvd⟩ := padTensor (u := u) (H := H) hs
    refine ⟨.float v, ?_, by simp, B * H, 1, hvs, Or.inr rfl, Or.inl rfl, ?_⟩
    · exact congrArg (Option.map Mask.float) hv
    · intro r hr t ht s hs'
      rw [ite_one hr, if_pos rfl]
      exact hvd r hr s hs'

theorem bcSize_pair {a b R : ℕ} (ha : a = 1 ∨ a = R) (hb : b = 1 ∨ b = R) : ∃ c, bcSize a b = some c ∧ (c = 1 ∨ c = R) ∧
    (c = 1 → a = 1) ∧ (c = 1 → b = 1) := by
  rcases ha with rfl | rfl
  · exact ⟨b, bcSize_one_left b, hb, fun _ => rfl, id⟩
  · rcases hb with rfl | rfl
    · exact ⟨a, bcSize_one_right a, Or.inr rfl, id, fun _ => rfl⟩
    · exact ⟨b, bcSize_self b, Or.inr rfl, id, id⟩

theorem ite_nested {a c r : ℕ} (h : c = 1 → a = 1) : (if a = 1 then 0 else (if c = 1 then 0 else r)) = if a = 1 then 0 else r := by
  by_cases ha : a = 1
  · rw [if_pos ha, if_pos ha]
  · rw [if_neg ha, if_neg ha, if_neg (fun hc => ha (h hc))]

/-- Two masks merged element by element. -/
theorem bcOp2_spec {A C E : Type} {x : NdTensor A} {y : NdTensor C} {a b a' b' R T S : ℕ} (op : A → C → E)
    (hx : x.shape = [a, b, S]) (hy : y.shape = [a', b', S]) (ha : a = 1 ∨ a = R) (hb : b = 1 ∨ b = T) (ha' : a' = 1 ∨ a' = R)
    (hb' : b' = 1 ∨ b' = T) :
    ∃ z p q, bcOp2 op x y = some z ∧ z.shape = [p, q, S] ∧ (p = 1 ∨ p = R) ∧ (q = 1 ∨ q = T) ∧
      ∀ r t s, s < S → z.data [if p = 1 then 0 else r, if q = 1 then 0 else t, s] =
        op (x.data [if a = 1 then 0 else r, if b = 1 then 0 else t, s]) (y.data [if a' = 1 then 0 else r, if b' = 1 then 0 else t, s]) := by
  obtain ⟨p, hp, hp1, hp2, hp3⟩ := bcSize_pair ha ha'
  obtain ⟨q, hq, hq1, hq2, hq3⟩ := bcSize_pair hb hb'
  refine ⟨⟨[p, q, S], fun idx => op (x.data (bcIndex x.shape idx)) (y.data (bcIndex y.shape idx))⟩, p, q, ?_, rfl, hp1, hq1, ?_⟩
  · unfold bcOp2
    rw [show bcShape x.shape y.shape = some [p, q, S] by rw [hx, hy, bcShape3, hp, hq, bcSize_self]; rfl]
    rfl
  · intro r t s hs
    show op (x.data (bcIndex x.shape _)) (y.data (bcIndex y.shape _)) = _
    rw [hx, hy, bcIndex3, bcIndex3, ite_one hs, ite_nested hp2, ite_nested hp3, ite_nested hq2, ite_nested hq3]

/-- Two masks, unless the padding mask is a float one. -/
theorem merge_spec {m k : Mask} {R T S : ℕ} {g g' : ℕ → ℕ → ℕ → WithBot ℝ} (hm : MaskIs m R T S g) (hk : MaskIs k R T S g')
    (hb : ∃ u, k = .bool u) : ∃ m', mergeMasks (some m) k = some m' ∧ MaskIs m' R T S (fun r t s => g r t s + g' r t s) := by
  obtain ⟨u, rfl⟩ := hb
  obtain ⟨a, b, hs, ha, hb, hd⟩ := hm
  obtain ⟨a', b', hs', ha', hb', hd'⟩ := hk
  cases m with
  | bool v =>
    obtain ⟨z, p, q, hz, hzs, hp, hq, hzd⟩ := bcOp2_spec (fun x y => x || y) (show v.shape = _ from hs) (show u.shape = _ from hs') ha hb ha' hb'
    refine ⟨.bool z, ?_, p, q, hzs, hp, hq, ?_⟩
    · show Option.map Mask.bool _ = _
      rw [hz]; rfl
    · intro r hr t ht s hs''
      have e := hd r hr t ht s hs''
      have e' := hd' r hr t ht s hs''
      show (if z.data _ = true then (⊥ : WithBot ℝ) else 0) = _
      show _ = g r t s + g' r t s
      rw [hzd r t s hs'', ← e, ← e']
      simp only [Mask.toFloat]
      cases v.data [if a = 1 then 0 else r, if b = 1 then 0 else t, s] <;>
        cases u.data [if a' = 1 then 0 else r, if b' = 1 then 0 else t, s] <;> simp
  | float v =>
    obtain ⟨z, p, q, hz, hzs, hp, hq, hzd⟩ := bcOp2_spec (fun x y => if y then (⊥ : WithBot ℝ) else x) (show v.shape = _ from hs)
      (show u.shape = _ from hs') ha hb ha' hb'
    refine ⟨.float z, ?_, p, q, hzs, hp, hq, ?_⟩
    · show Option.map Mask.float _ = _
      rw [hz]; rfl
    · intro r hr t ht s hs''
      have e := hd r hr t ht s hs''
      have e' := hd' r hr t ht s hs''
      show z.data _ = _
      show _ = g r t s + g' r t s
      rw [hzd r t s hs'', ← e, ← e']
      simp only [Mask.toFloat]
      cases u.data [if a' = 1 then 0 else r, if b' = 1 then 0 else t, s] <;> simp

/-- The mask added to the scores is the sum of the two masks. -/
theorem finalMask_spec {attn kpm : Option Mask} {B H T S : ℕ} {g : ℕ → ℕ → ℕ → WithBot ℝ} {g' : ℕ → ℕ → WithBot ℝ}
    (ha : AttnIs attn (B * H) T S g) (hk : PadIs kpm B S g') (hH : 0 < H)
    (hc : attn = none ∨ ∀ m, kpm = some m → ∃ u, m = .bool u) :
    ∃ mask : Option Mask, finalMask B H S attn kpm = some (mask.map Mask.toFloat) ∧
      AttnIs mask (B * H) T S (fun r t s => g r t s + g' (r / H) s) := by
  have hdiv : ∀ {r}, r < B * H → r / H < B := fun hr => Nat.div_lt_of_lt_mul (by rw [mul_comm]; exact hr)
  cases kpm with
  | none =>
    refine ⟨attn, rfl, ha.congr ?_⟩
    intro r hr t ht s hs
    have : g' (r / H) s = 0 := hk _ (hdiv hr) s hs
    rw [this, add_zero]
  | some k =>
    obtain ⟨hks, hkd⟩ := hk
    obtain ⟨m', hm', hbool, hmi⟩ := padMask_spec (H := H) (T := T) hks
    have hmi' : MaskIs m' (B * H) T S (fun r _ s => g' (r / H) s) :=
      hmi.congr fun r hr t ht s hs => hkd _ (hdiv hr) s hs
    cases attn with
    | none =>
      refine ⟨some m', ?_, hmi'.congr ?_⟩
      · show (padMask B H S k).bind _ = _
        rw [hm']; rfl
      · intro r hr t ht s hs
        have : g r t s = 0 := ha r hr t ht s hs
        rw [this, zero_add]
    | some a =>
      obtain ⟨u, hu⟩ := (hc.resolve_left (by simp)) k rfl
      obtain ⟨m'', hm'', hmm⟩ := merge_spec ha hmi' (hbool u hu)
      refine ⟨some m'', ?_, hmm⟩
      show (padMask B H S k).bind _ = _
      rw [hm']
      show (mergeMasks (some a) m').map _ = _
      rw [hm'']; rfl

/-- The scores. -/
theorem scores_spec {q kt : NdTensor ℝ} {R T D S : ℕ} {f g : ℕ → ℕ → ℕ → ℝ} (hq : Is q R T D f) (hk : Is kt R D S g) {mask : Option Mask}
    {gm : ℕ → ℕ → ℕ → WithBot ℝ}
    (hm : AttnIs mask R T S gm) :
    ∃ y, scores (mask.map Mask.toFloat) q kt = some y ∧
      Is y R T S (fun r t s => gm r t s + ((∑ d ∈ range D, f r t d * g r d s : ℝ) : WithBot ℝ)) := by
  obtain ⟨z, hz, hzs⟩ := hq.bmm hk
  unfold scores
  rw [hz]
  cases mask with
  | none =>
    refine ⟨⟨z.shape, fun idx => (z.data idx : WithBot ℝ)⟩, rfl, hzs.1, ?_⟩
    intro r hr t ht s hs
    show ((z.data [r, t, s] : ℝ) : WithBot ℝ) = _
    rw [hzs.2 r hr t ht s hs]
    have : gm r t s = 0 := hm r hr t ht s hs
    show _ = gm r t s + _
    rw [this, zero_add]
  | some m =>
    obtain ⟨y, hy, hys⟩ := MaskIs.expand hm
    refine ⟨⟨z.shape, fun idx => y.data idx + (z.data idx : WithBot ℝ)⟩, ?_, hzs.1, ?_⟩
    · show (Mha.expand z.shape m.toFloat).map _ = _
      rw [hzs.1, hy]
      rfl
    · intro r hr t ht s hs
      show y.data [r, t, s] + ((z.data [r, t, s] : ℝ) : WithBot ℝ) = _
      rw [hzs.2 r hr t ht s hs, hys.2 r hr t ht s hs]

/-- Attention of all the rows. -/
theorem attend_spec (f : Spec.Elementwise) {q k v : NdTensor ℝ} {T B H D S : ℕ} {fq fk fv : ℕ → ℕ → ℕ → ℝ} (hq : Is q (B * H) T D fq)
    (hk : Is k (B * H) S D fk) (hv : Is v (B * H) S D fv) {mask : Option Mask} {gm : ℕ → ℕ → ℕ → WithBot ℝ}
    (hm : AttnIs mask (B * H) T S gm) (W : ℕ → ℕ → ℕ → ℝ)
    (hW : ∀ r t s, W r t s = f.weight (Spec.softmax S (fun s => f.score (gm r t s +
      ((∑ d ∈ range D, f.q (fq r t d / Real.sqrt D) * f.k (fk r s d) : ℝ) : WithBot ℝ))) s)) :
    ∃ w o, attend f T B (H * D) (mask.map Mask.toFloat) q k v = some (w, o) ∧ Is w (B * H) T S W ∧
      Is o T B (H * D) (fun t n e => ∑ s ∈ range S, W (n * H + e / D) t s * f.v (fv (n * H + e / D) s (e % D))) := by
  obtain ⟨kt, hkt, hkts⟩ := hk.transpose12
  have hqs := hq.map fun x => f.q (x / Real.sqrt (q.shape.getD 2 0))
  rw [show q.shape.getD 2 0 = D by rw [hq.1]; rfl] at hqs
  obtain ⟨sc, hsc, hscs⟩ := scores_spec hqs (hkts.map f.k) hm
  have hw := ((hscs.map f.score).softmax).map f.weight
  obtain ⟨o, ho, hos⟩ := hw.bmm (hv.map f.v)
  obtain ⟨o', ho', hos'⟩ := hos.transpose01
  obtain ⟨o'', ho'', hos''⟩ := hos'.mergeHeads
  refine ⟨(softmaxLast (sc.map f.score)).map f.weight, o'', ?_, hw.congr ?_, hos''.congr ?_⟩
  · unfold attend
    rw [show q.shape.getD 2 0 = D by rw [hq.1]; rfl]
    simp only [hkt, Option.bind_some, hsc, ho, ho', ho'', Option.map_some]
  · intro r _ t _ s _
    rw [hW]
  · intro t _ n _ e _
    refine Finset.sum_congr rfl fun s _ => ?_
    rw [hW]


theorem row_congr (L : Linear) {x y : ℕ → ℝ} (h : ∀ i < L.inFeatures, x i = y i) (o : ℕ) : L.row x o = L.row y o := by
  unfold Linear.row
  congr 2
  refine Finset.sum_congr rfl fun i hi => ?_
  rw [h i (Finset.mem_range.mp hi)]

theorem project_spec {M : Module} {T S B d : ℕ} {query key value : NdTensor ℝ} {Q K V : ℕ → ℕ → ℕ → ℝ} {same : Bool}
    (hM : M.Fits d) (hq : Is query T B M.embedDim (fun t n e => Q n t e)) (hk : Is key S B d (fun s n e => K n s e))
    (hv : Is value S B d (fun s n e => V n s e)) (hsame : M.inProj.Accepts same query key value) :
    ∃ q k v, M.inProj.project same query key value = some (q, k, v) ∧
      Is q T B M.embedDim (fun t n e => M.queryRow (Q n t) e) ∧ Is k S B M.embedDim (fun s n e => M.keyRow (K n s) e) ∧
      Is v S B M.embedDim (fun s n e => M.valueRow (V n s) e) := by
  obtain ⟨-, -, hp, -⟩ := hM
  unfold Module.queryRow Module.keyRow Module.valueRow
  cases hpr : M.inProj with
  | packed l =>
    rw [hpr] at hp hsame
    obtain ⟨hd, hin, hout⟩ := hp
    obtain ⟨rfl, rfl, rfl⟩ := hsame
    obtain ⟨y, hy, hys⟩ := hq.linear l hin
    obtain ⟨y', hy', hys'⟩ := hk.linear l (hin.trans hd.symm)
    obtain ⟨y'', hy'', hys''⟩ := hv.linear l (hin.trans hd.symm)
    rw [hy] at hy' hy''
    obtain rfl := Option.some.inj hy'
    obtain rfl := Option.some.inj hy''
    rw [hout] at hys hys' hys''
    refine ⟨chunk3 0 y, chunk3 1 y, chunk3 2 y, ?_, (hys.chunk (by omega)).congr ?_, (hys'.chunk (by omega)).congr ?_,
      (hys''.chunk (by omega)).congr ?_⟩
    · unfold InProj.project
      simp only [hy, if_true, Option.map_some]
    · intro i _ j _ k _
      simp
    · intro i _ j _ k _
      simp
    · intro i _ j _ k _
      simp
  | separate lq lk lv =>
    rw [hpr] at hp
    obtain ⟨h1, h2, h3, h4, h5, h6⟩ := hp
    obtain ⟨q, hq', hqs⟩ := hq.linear lq h1
    obtain ⟨k, hk', hks⟩ := hk.linear lk h3
    obtain ⟨v, hv', hvs⟩ := hv.linear lv h5
    rw [h2] at hqs
    rw [h4] at hks
    rw [h6] at hvs
    refine ⟨q, k, v, ?_, hqs, hks, hvs⟩
    unfold InProj.project
    simp only [hq', hk', hv', Option.bind_some, Option.map_some]

/-- The learned position. -/
def withBias (M : Module) (kv : Spec.KeyValues) : Spec.KeyValues :=
  match M.biasKV with
  | none => kv
  | some (bk, bv) => kv.push bk bv

theorem addBias_spec (M : Module) {S B T R : ℕ} {k v : NdTensor ℝ} {K V : ℕ → ℕ → ℕ → ℝ} (hk : Is k S B M.embedDim (fun s n e => K n s e))
    (hv : Is v S B M.embedDim (fun s n e => V n s e)) {attn kpm : Option Mask} {g : ℕ → ℕ → ℕ → WithBot ℝ} {g' : ℕ → ℕ → WithBot ℝ}
    (ha : AttnIs attn R T S g) (hp : PadIs kpm B S g') :
    ∃ k' v' attn' kpm' S', addBias B M.embedDim M.biasKV k v attn kpm = some (k', v', attn', kpm') ∧ S ≤ S' ∧
      (∀ n, (withBias M ⟨S, K n, V n⟩).len = S') ∧
      Is k' S' B M.embedDim (fun s n e => (withBias M ⟨S, K n, V n⟩).key s e) ∧
      Is v' S' B M.embedDim (fun s n e => (withBias M ⟨S, K n, V n⟩).value s e) ∧
      AttnIs attn' R T S' (fun r t s => if s < S then g r t s else 0) ∧ PadIs kpm' B S' (fun n s => if s < S then g' n s else 0) ∧
      (attn = none → attn' = none) ∧ ((∀ m, kpm = some m → ∃ u, m = .bool u) → ∀ m, kpm' = some m → ∃ u, m = .bool u) := by
  unfold addBias withBias
  cases hb : M.biasKV with
  | none =>
    refine ⟨k, v, attn, kpm, S, rfl, le_refl _, fun _ => rfl, hk, hv, ha.congr ?_, ?_, id, id⟩
    · intro r _ t _ s hs
      rw [if_pos hs]
    · cases kpm with
      | none =>
        intro n hn s hs
        exact (if_pos hs).trans (hp n hn s hs)
      | some m =>
        refine ⟨hp.1, fun n hn s hs => ?_⟩
        exact (hp.2 n hn s hs).trans (if_pos hs).symm
  | some p =>
    obtain ⟨bk, bv⟩ := p
    obtain ⟨k', hk', hks⟩ := hk.cat0 (y := ⟨[1, B, M.embedDim], fun idx => bk (idx.getD 2 0)⟩) (g := fun _ e => bk e)
      ⟨rfl, fun i _ j _ k _ => rfl⟩
    obtain ⟨v', hv', hvs⟩ := hv.cat0 (y := ⟨[1, B, M.embedDim], fun idx => bv (idx.getD 2 0)⟩) (g := fun _ e => bv e)
      ⟨rfl, fun i _ j _ k _ => rfl⟩
    refine ⟨k', v', _, _, S + 1, ?_, Nat.le_succ _, fun _ => rfl, hks.congr ?_, hvs.congr ?_, ha.pad, hp.pad, ?_, ?_⟩
    · simp only [hk', hv', Option.bind_some, Option.map_some]
    · intro s _ n _ e _
      simp only [Spec.KeyValues.push]
      by_cases h : s < S <;> simp [h]
    · intro s _ n _ e _
      simp only [Spec.KeyValues.push]
      by_cases h : s < S <;> simp [h]
    · rintro rfl; rfl
    · intro h m hm
      cases kpm with
      | none => simp at hm
      | some m' =>
        obtain ⟨u, rfl⟩ := h m' rfl
        exact ⟨_, (Option.some.inj hm).symm⟩

theorem addZero_spec (flag : Bool) {S B T D H : ℕ} {k v : NdTensor ℝ} {kv : ℕ → Spec.KeyValues} (hlen : ∀ n, (kv n).len = S)
    (hk : Is k (B * H) S D (fun r s d => (kv (r / H)).key s (r % H * D + d)))
    (hv : Is v (B * H) S D (fun r s d => (kv (r / H)).value s (r % H * D + d))) {attn kpm : Option Mask}
    {g : ℕ → ℕ → ℕ → WithBot ℝ} {g' : ℕ → ℕ → WithBot ℝ} {S₀ : ℕ} (hS : S₀ ≤ S)
    (ha : AttnIs attn (B * H) T S (fun r t s => if s < S₀ then g r t s else 0)) (hp : PadIs kpm B S (fun n s => if s < S₀ then g' n s else 0)) :
    ∃ k' v' attn' kpm' S', addZero flag (B * H) D k v attn kpm = some (k', v', attn', kpm') ∧
      (∀ n, (if flag then (kv n).push (fun _ => 0) (fun _ => 0) else kv n).len = S') ∧
      Is k' (B * H) S' D (fun r s d => (if flag then (kv (r / H)).push (fun _ => 0) (fun _ => 0) else kv (r / H)).key s (r % H * D + d)) ∧
      Is v' (B * H) S' D (fun r s d => (if flag then (kv (r / H)).push (fun _ => 0) (fun _ => 0) else kv (r / H)).value s (r % H * D + d)) ∧
      AttnIs attn' (B * H) T S' (fun r t s => if s < S₀ then g r t s else 0) ∧ PadIs kpm' B S' (fun n s => if s < S₀ then g' n s else 0) ∧
      (attn = none → attn' = none) ∧ ((∀ m, kpm = some m → ∃ u, m = .bool u) → ∀ m, kpm' = some m → ∃ u, m = .bool u) := by
  unfold addZero
  cases flag with
  | false => exact ⟨k, v, attn, kpm, S, rfl, hlen, hk, hv, ha, hp, id, id⟩
  | true =>
    obtain ⟨k', hk', hks⟩ := hk.cat1 (y := ⟨[B * H, 1, D], fun _ => 0⟩) (g := fun _ _ => 0) ⟨rfl, fun i _ j _ k _ => rfl⟩
    obtain ⟨v', hv', hvs⟩ := hv.cat1 (y := ⟨[B * H, 1, D], fun _ => 0⟩) (g := fun _ _ => 0) ⟨rfl, fun i _ j _ k _ => rfl⟩
    refine ⟨k', v', attn.map Mask.padColumn, kpm.map Mask.padColumn, S + 1, ?_, fun n => congrArg (· + 1) (hlen n), hks.congr ?_, hvs.congr ?_, ha.pad.congr ?_, ?_, ?_, ?_⟩
    · simp only [hk', hv', Option.bind_some, Option.map_some, if_true]
    · intro r _ s _ d _
      simp only [Spec.KeyValues.push, if_true, hlen]
      by_cases h : s < S <;> simp [h]
    · intro r _ s _ d _
      simp only [Spec.KeyValues.push, if_true, hlen]
      by_cases h : s < S <;> simp [h]
    · intro r _ t _ s _
      by_cases h : s < S
      · rw [if_pos h]
      · rw [if_neg h, if_neg (by omega)]
    · have := hp.pad
      cases kpm with
      | none =>
        intro n hn s hs
        have h1 : (if s < S then (if s < S₀ then g' n s else 0) else 0) = 0 := this n hn s hs
        show (if s < S₀ then g' n s else 0) = 0
        by_cases h : s < S
        · rw [if_pos h] at h1; exact h1
        · exact if_neg (by omega)
      | some m =>
        refine ⟨this.1, fun n hn s hs => (this.2 n hn s hs).trans ?_⟩
        show (if s < S then (if s < S₀ then g' n s else 0) else 0) = if s < S₀ then g' n s else 0
        by_cases h : s < S
        · rw [if_pos h]
        · rw [if_neg h, if_neg (by omega)]
    · rintro rfl; rfl
    · intro h m hm
      cases kpm with
      | none => simp at hm
      | some m' =>
        obtain ⟨u, rfl⟩ := h m' rfl
        exact ⟨_, (Option.some.inj hm).symm⟩

theorem extend_eq (M : Module) (kv : Spec.KeyValues) : M.extend kv =
    if M.addZeroAttn then (withBias M kv).push (fun _ => 0) (fun _ => 0) else withBias M kv := by
  unfold Module.extend withBias
  cases M.biasKV <;> rfl

/-- The weights returned for inputs with three dimensions. -/
theorem weights_spec {w : NdTensor ℝ} {B H T S : ℕ} {W : ℕ → ℕ → ℕ → ℝ} (hw : Is w (B * H) T S W) :
    ∃ y, w.reshape [B, H, T, S] = some y ∧ y.shape = [B, H, T, S] ∧
      ∀ n < B, ∀ h < H, ∀ t < T, ∀ s < S, y.data [n, h, t, s] = W (n * H + h) t s := by
  obtain ⟨hs, hd⟩ := hw
  refine ⟨⟨[B, H, T, S], fun idx => w.data (fromPosition w.shape (Spec.ravel [B, H, T, S] idx))⟩, ?_, rfl, ?_⟩
  · unfold reshape
    rw [if_pos]
    rw [hs]; simp [mul_assoc]
  · intro n hn h hh t ht s hs'
    show w.data (fromPosition w.shape (Spec.ravel [B, H, T, S] [n, h, t, s])) = _
    have e : Spec.ravel [B, H, T, S] [n, h, t, s] = (n * H + h) * (T * S) + (t * S + s) := by
      simp [Spec.ravel]; ring
    rw [e, hs, fromPosition3 ht hs']
    exact hd _ (row_lt hn hh) t ht s hs'

/-- The whole computation, for inputs with three dimensions. -/
theorem body_spec {M : Module} {T S B d : ℕ} {query key value : NdTensor ℝ} {Q K V : ℕ → ℕ → ℕ → ℝ} {same batched needWeights average : Bool}
    (hM : M.Fits d) (hq : Is query T B M.embedDim (fun t n e => Q n t e)) (hk : Is key S B d (fun s n e => K n s e))
    (hv : Is value S B d (fun s n e => V n s e)) (hsame : M.inProj.Accepts same query key value)
    {attn kpm : Option Mask} {g' : ℕ → ℕ → WithBot ℝ}
    (ha : ∀ m, attn = some m → m.shape = [T, S] ∨ m.shape = [B * M.numHeads, T, S]) (hp : PadIs kpm B S g')
    (hc : attn = none ∨ ∀ m, kpm = some m → ∃ u, m = .bool u) :
    ∃ o w S', M.body same batched needWeights average query key value kpm attn = some (if batched then o else squeeze 1 o, w) ∧
      (∀ n, (M.extend ⟨S, fun s => M.keyRow (K n s), fun s => M.valueRow (V n s)⟩).len = S') ∧
      Is o T B M.outProj.outFeatures (fun t n e => M.outProj.row (Spec.attentionHeads M.quant (M.embedDim / M.numHeads)
        (fun t => M.queryRow (Q n t)) (M.extend ⟨S, fun s => M.keyRow (K n s), fun s => M.valueRow (V n s)⟩)
        (fun h t s => if s < S then attnValue attn M.numHeads n h t s + g' n s else 0) t) e) ∧
      ∃ y : NdTensor ℝ, y.shape = [B, M.numHeads, T, S'] ∧
        (∀ n < B, ∀ h < M.numHeads, ∀ t < T, ∀ s < S', y.data [n, h, t, s] = Spec.attentionWeight M.quant (M.embedDim / M.numHeads)
          (fun t => M.queryRow (Q n t)) (M.extend ⟨S, fun s => M.keyRow (K n s), fun s => M.valueRow (V n s)⟩)
          (fun h t s => if s < S then attnValue attn M.numHeads n h t s + g' n s else 0) h t s) ∧
        w = if needWeights then some (
          let z : NdTensor ℝ := if average then
            ⟨[B, T, S'], fun idx => (∑ h ∈ range M.numHeads, y.data [idx.getD 0 0, h, idx.getD 1 0, idx.getD 2 0]) / M.numHeads⟩ else y
          if batched then z else squeeze 0 z) else none := by
  obtain ⟨q, k, v, hproj, hqs, hks, hvs⟩ := project_spec hM hq hk hv hsame
  obtain ⟨hH, hdvd, -, hout⟩ := hM
  have hE : M.embedDim = M.numHeads * (M.embedDim / M.numHeads) := (Nat.mul_div_cancel' hdvd).symm
  obtain ⟨D, hD⟩ : ∃ D, D = M.embedDim / M.numHeads := ⟨_, rfl⟩
  obtain ⟨H, hHe⟩ : ∃ H, H = M.numHeads := ⟨_, rfl⟩
  -- masks
  have hprep : ∃ attn', prepAttn B M.numHeads T S attn = some attn' ∧
      AttnIs attn' (B * M.numHeads) T S (fun r t s => attnValue attn M.numHeads (r / M.numHeads) (r % M.numHeads) t s) ∧
      (attn = none → attn' = none) := by
    cases attn with
    | none => exact ⟨none, rfl, fun _ _ _ _ _ _ => rfl, id⟩
    | some m =>
      have hrow : ∀ r, r / M.numHeads * M.numHeads + r % M.numHeads = r := fun r => by rw [mul_comm]; exact Nat.div_add_mod r _
      rcases ha m rfl with h | h
      · obtain ⟨m', hm', hmi⟩ := prep2 (B := B) (H := M.numHeads) h
        refine ⟨some m', by simp only [prepAttn, hm', Option.map_some], hmi.congr ?_, by simp⟩
        intro r _ t _ s _
        simp [attnValue, h]
      · obtain ⟨m', hm', hmi⟩ := prep3 h
        refine ⟨some m', by simp only [prepAttn, hm', Option.map_some], hmi.congr ?_, by simp⟩
        intro r _ t _ s _
        simp [attnValue, h, hrow]
  obtain ⟨attn1, hattn1, hattn1s, hnone1⟩ := hprep
  obtain ⟨k1, v1, attn2, kpm2, S1, hbias, hS1, hlen1, hk1s, hv1s, hattn2s, hpad2s, hnone2, hbool2⟩ :=
    addBias_spec M (K := fun n s => M.keyRow (K n s)) (V := fun n s => M.valueRow (V n s)) hks hvs hattn1s hp
  rw [hE, ← hD] at hqs hk1s hv1s
  obtain ⟨q2, hq2, hq2s⟩ := hqs.split
  obtain ⟨k2, hk2, hk2s⟩ := hk1s.split
  obtain ⟨v2, hv2, hv2s⟩ := hv1s.split
  obtain ⟨k3, v3, attn3, kpm3, S3, hzero, hlen3, hk3s, hv3s, hattn3s, hpad3s, hnone3, hbool3⟩ :=
    addZero_spec M.addZeroAttn (kv := fun n => withBias M ⟨S, fun s => M.keyRow (K n s), fun s => M.valueRow (V n s)⟩)
      hlen1 hk2s hv2s hS1 hattn2s hpad2s
  obtain ⟨mask, hmask, hmasks⟩ := finalMask_spec hattn3s hpad3s hH
    (hc.imp (fun h => hnone3 (hnone2 (hnone1 h))) (fun h => hbool3 (hbool2 h)))
  simp only [← extend_eq] at hlen3 hk3s hv3s
  obtain ⟨w, o, hatt, hws, hos⟩ := attend_spec M.quant hq2s hk3s hv3s hmasks _ (fun r t s => rfl)
  have hED : M.numHeads * D = M.embedDim := by rw [hD, ← hE]
  rw [hED] at hos hatt
  obtain ⟨o', ho', hos'⟩ := hos.linear M.outProj hout
  obtain ⟨y, hy, hysh, hyd⟩ := weights_spec hws
  have hsrc : k3.shape.getD 1 0 = S3 := by rw [hk3s.1]; rfl
  have hsc : ∀ n h t, h < M.numHeads → ∀ s,
      ((if s < S then attnValue attn M.numHeads ((n * M.numHeads + h) / M.numHeads) ((n * M.numHeads + h) % M.numHeads) t s else 0) +
        (if s < S then g' ((n * M.numHeads + h) / M.numHeads) s else 0) : WithBot ℝ) =
      if s < S then attnValue attn M.numHeads n h t s + g' n s else 0 := by
    intro n h t hh s
    rw [(divmod_pos hh).1, (divmod_pos hh).2]
    by_cases h : s < S
    · rw [if_pos h, if_pos h, if_pos h]
    · rw [if_neg h, if_neg h, if_neg h, add_zero]
  have hW : ∀ n h t s, h < M.numHeads → M.quant.weight (Spec.softmax S3 (fun s => M.quant.score
      (((if s < S then attnValue attn M.numHeads ((n * M.numHeads + h) / M.numHeads) ((n * M.numHeads + h) % M.numHeads) t s else 0) +
        (if s < S then g' ((n * M.numHeads + h) / M.numHeads) s else 0) : WithBot ℝ) +
        ((∑ i ∈ range D, M.quant.q (M.queryRow (Q ((n * M.numHeads + h) / M.numHeads) t) ((n * M.numHeads + h) % M.numHeads * D + i) / Real.sqrt D) *
          M.quant.k ((M.extend ⟨S, fun s => M.keyRow (K ((n * M.numHeads + h) / M.numHeads) s),
            fun s => M.valueRow (V ((n * M.numHeads + h) / M.numHeads) s)⟩).key s ((n * M.numHeads + h) % M.numHeads * D + i)) : ℝ) : WithBot ℝ))) s) =
      Spec.attentionWeight M.quant (M.embedDim / M.numHeads) (fun t => M.queryRow (Q n t))
        (M.extend ⟨S, fun s => M.keyRow (K n s), fun s => M.valueRow (V n s)⟩)
        (fun h t s => if s < S then attnValue attn M.numHeads n h t s + g' n s else 0) h t s := by
    intro n h t s hh
    unfold Spec.attentionWeight Spec.attentionScore
    simp only [hsc n h t hh]
    rw [(divmod_pos hh).1, (divmod_pos hh).2, hlen3, ← hD]
  refine ⟨o', _, S3, ?_, hlen3, hos'.congr ?_, y, hysh, ?_, rfl⟩
  · have hT : query.shape.getD 0 0 = T := by rw [hq.1]; rfl
    have hB : query.shape.getD 1 0 = B := by rw [hq.1]; rfl
    have hS : key.shape.getD 0 0 = S := by rw [hk.1]; rfl
    unfold Module.body
    simp only [hT, hB, hS, hproj, Option.bind_some, ← hD]
    simp only [hattn1, Option.bind_some, hbias, hq2, hk2, hv2, hzero, hsrc, hmask, hatt, ho']
    unfold returnedWeights
    cases needWeights with
    | false => rfl
    | true =>
      simp only [if_true, hy, Option.map_some]
  · intro t ht n hn e he
    refine row_congr _ ?_ e
    intro i hi
    rw [hout] at hi
    have hDpos : 0 < D := by
      rcases Nat.eq_zero_or_pos D with h0 | h0
      · rw [← hD, h0] at hE; omega
      · exact h0
    have hh : i / D < M.numHeads := Nat.div_lt_of_lt_mul (by rw [mul_comm, hD, ← hE]; exact hi)
    unfold Spec.attentionHeads
    rw [hlen3, ← hD]
    refine Finset.sum_congr rfl fun s _ => ?_
    have hw' := hW n (i / D) t s hh
    rw [← hD] at hw'
    rw [hw', (divmod_pos hh).1, (divmod_pos hh).2, mul_comm (i / D) D, Nat.div_add_mod]
  · intro n hn h hh t ht s hs
    rw [hyd n hn h hh t ht s hs, hW n h t s hh]

end Brevitas.Mha
