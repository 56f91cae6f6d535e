import Verif.Model.SameConv
import Verif.Lemmas.ShapedTensor
import Verif.Lemmas.Tensor
import Mathlib.Tactic.Ring
import Mathlib.Tactic.Linarith
import Mathlib.Algebra.Order.Ring.Int

/-!
# Lemmas on 'same' padding
-/

set_option linter.unusedSectionVars false

namespace Brevitas

namespace SameConv

open NdTensor

theorem outSize_pos {i s : ℕ} (hi : 0 < i) (hs : 0 < s) : 0 < outSize i s := by
  unfold outSize
  exact Nat.div_pos (by omega) hs

theorem le_outSize_mul {i s : ℕ} (hs : 0 < s) : i ≤ outSize i s * s := by
  unfold outSize
  have := Nat.lt_div_mul_add (a := i + s - 1) hs
  omega

theorem padAmount_eq {i k s d : ℕ} (hi : 0 < i) (hk : 0 < k) (hs : 0 < s) : padAmount i k s d = (outSize i s - 1) * s + (k - 1) * d + 1 - i := by
  have ho := outSize_pos hi hs
  unfold padAmount
  obtain ⟨o, ho'⟩ : ∃ o, outSize i s = o + 1 := ⟨_, (Nat.succ_pred_eq_of_pos ho).symm⟩
  obtain ⟨k', rfl⟩ : ∃ k', k = k' + 1 := ⟨_, (Nat.succ_pred_eq_of_pos hk).symm⟩
  rw [ho']
  simp only [Nat.add_sub_cancel, Nat.cast_add, Nat.cast_one, add_sub_cancel_right]
  generalize hA : o * s = A
  generalize hB : k' * d = B
  have hA' : (o : ℤ) * s = A := by exact_mod_cast hA
  have hB' : (k' : ℤ) * d = B := by exact_mod_cast hB
  rw [hA', hB']
  omega

theorem samePadding_padAmount {i k s d : ℕ} (hi : 0 < i) (hk : 0 < k) (hs : 0 < s) :
    SamePadding i k s d (padAmount i k s d / 2) (padAmount i k s d - padAmount i k s d / 2) := by
  have h := padAmount_eq (d := d) hi hk hs
  have e : outSize i s = (i + s - 1) / s := rfl
  rw [e] at h
  generalize hN : ((i + s - 1) / s - 1) * s + (k - 1) * d + 1 = N at h
  refine ⟨?_, ?_, ?_⟩
  · rw [hN]; omega
  · intro total ht
    rw [hN] at ht
    omega
  · omega

theorem convSize_padded {i k s d : ℕ} (hi : 0 < i) (hk : 0 < k) (hs : 0 < s) : convSize (i + padAmount i k s d) k s d = outSize i s := by
  have h := padAmount_eq (d := d) hi hk hs
  have ho := outSize_pos hi hs
  have hle := le_outSize_mul (i := i) hs
  obtain ⟨o, ho'⟩ : ∃ o, outSize i s = o + 1 := ⟨_, (Nat.succ_pred_eq_of_pos ho).symm⟩
  rw [ho'] at h hle ⊢
  simp only [Nat.add_sub_cancel] at h
  unfold convSize
  congr 1
  rw [Nat.succ_mul] at hle
  by_cases hp : padAmount i k s d = 0
  · rw [hp] at h ⊢
    have h1 : o * s ≤ i - (k - 1) * d - 1 := by omega
    apply Nat.div_eq_of_lt_le
    · simpa using h1
    · rw [Nat.succ_mul]; omega
  · have h1 : i + padAmount i k s d - (k - 1) * d - 1 = o * s := by omega
    rw [h1, Nat.mul_div_cancel _ hs]

theorem window_fits {i k s d : ℕ} (hi : 0 < i) (hk : 0 < k) (hs : 0 < s) : (k - 1) * d + 1 ≤ i + padAmount i k s d := by
  have h := padAmount_eq (d := d) hi hk hs
  omega

/-- A position read by a window is inside the input. -/
theorem tap_lt {n k s d o t : ℕ} (hs : 0 < s) (hfit : (k - 1) * d + 1 ≤ n) (ho : o < convSize n k s d) (ht : t < k) : o * s + t * d < n := by
  unfold convSize at ho
  have h1 : o ≤ (n - (k - 1) * d - 1) / s := by omega
  have h2 : o * s ≤ n - (k - 1) * d - 1 := (Nat.le_div_iff_mul_le hs).1 h1
  have h3 : t * d ≤ (k - 1) * d := Nat.mul_le_mul_right _ (by omega)
  omega

theorem tapPos_inBounds : ∀ (sp ks stride dilation o t : List ℕ), sp.length = ks.length → stride.length = ks.length → dilation.length = ks.length →
    (∀ s ∈ stride, 0 < s) → (∀ a ∈ zip4 sp ks stride dilation, (a.2.1 - 1) * a.2.2.2 + 1 ≤ a.1) →
    InBounds ((zip4 sp ks stride dilation).map fun a => convSize a.1 a.2.1 a.2.2.1 a.2.2.2) o → InBounds ks t → InBounds sp (tapPos stride dilation o t) := by
  intro sp
  induction sp with
  | nil =>
    intro ks stride dilation o t h1 _ _ _ _ ho ht
    cases ks with
    | nil =>
      simp only [zip4, List.zip_nil_left, List.map_nil] at ho
      cases ho
      exact List.Forall₂.nil
    | cons => simp at h1
  | cons n sp ih =>
    intro ks stride dilation o t h1 h2 h3 hs hfit ho ht
    cases ks with
    | nil => simp at h1
    | cons k ks =>
    cases stride with
    | nil => simp at h2
    | cons s stride =>
    cases dilation with
    | nil => simp at h3
    | cons d dilation =>
    simp only [zip4, List.zip_cons_cons, List.map_cons] at ho
    cases ho with
    | cons hoo ho =>
    cases ht with
    | cons htt ht =>
    rename_i o' os t' ts
    simp only [List.length_cons, Nat.add_right_cancel_iff] at h1 h2 h3
    refine List.Forall₂.cons ?_ (ih ks stride dilation os ts h1 h2 h3 (fun s hs' => hs s (List.mem_cons_of_mem _ hs')) ?_ ho ht)
    · exact tap_lt (hs s (by simp)) (hfit (n, k, s, d) (by simp [zip4])) hoo htt
    · intro a ha
      exact hfit a (by simp only [zip4, List.zip_cons_cons]; exact List.mem_cons_of_mem _ ha)

variable {K : Type*} [CommRing K]

/-- The padded input: its shape, and what it contains inside. -/
structure PaddedBy (x x' : NdTensor K) (bt ch : ℕ) (sp : List ℕ) (lr : List (ℕ × ℕ)) : Prop where
  shape : x'.shape = bt :: ch :: List.zipWith (fun n p => p.1 + n + p.2) sp lr
  data : ∀ b c pos, InBounds (List.zipWith (fun n p => p.1 + n + p.2) sp lr) pos →
    x'.data (b :: c :: pos) = zeroRead x [b, c] (List.zipWith (fun (i : ℕ) (p : ℕ × ℕ) => (i : ℤ) - p.1) pos lr)

theorem read_cond (sp : List ℕ) : ∀ (lr : List (ℕ × ℕ)) (pos : List ℕ), lr.length = sp.length → pos.length = sp.length →
    (List.Forall₂ (fun (i : ℕ) (a : ℕ × (ℕ × ℕ)) => a.2.1 ≤ i ∧ i < a.2.1 + a.1) pos (List.zip sp lr) ↔
      List.Forall₂ (fun (p : ℤ) (n : ℕ) => 0 ≤ p ∧ p < n) (List.zipWith (fun (i : ℕ) (p : ℕ × ℕ) => (i : ℤ) - p.1) pos lr) sp) := by
  induction sp with
  | nil =>
    intro lr pos h1 h2
    rw [List.length_eq_zero_iff.1 h1, List.length_eq_zero_iff.1 h2]
    simp
  | cons n sp ih =>
    intro lr pos h1 h2
    cases lr with
    | nil => simp at h1
    | cons q lr =>
    cases pos with
    | nil => simp at h2
    | cons i pos =>
    simp only [List.length_cons, Nat.add_right_cancel_iff] at h1 h2
    simp only [List.zip_cons_cons, List.zipWith_cons_cons, List.forall₂_cons, ih lr pos h1 h2]
    constructor
    · rintro ⟨⟨a, b⟩, c⟩; exact ⟨⟨by omega, by omega⟩, c⟩
    · rintro ⟨⟨a, b⟩, c⟩; exact ⟨⟨by omega, by omega⟩, c⟩

theorem toNat_zipWith : ∀ (pos : List ℕ) (lr : List (ℕ × ℕ)), (List.zipWith (fun (i : ℕ) (p : ℕ × ℕ) => (i : ℤ) - p.1) pos lr).map Int.toNat =
    List.zipWith (fun i p => i - p.1) pos lr := by
  intro pos
  induction pos with
  | nil => intro lr; rfl
  | cons i pos ih =>
    intro lr
    cases lr with
    | nil => rfl
    | cons q lr =>
      simp only [List.zipWith_cons_cons, List.map_cons, ih lr]
      congr 1
      omega

theorem zipWith_length {α : Type*} (sp : List ℕ) (lr : List α) (f : ℕ → α → ℕ) (h : lr.length = sp.length) : (List.zipWith f sp lr).length = sp.length := by simp [h]

theorem paddedBy_padZeros (x : NdTensor K) (bt ch : ℕ) (sp pads : List ℕ) (hx : x.shape = bt :: ch :: sp) (hl : ((padPairs pads).reverse).length = sp.length) :
    PaddedBy x (padZeros pads x) bt ch sp (padPairs pads).reverse := by
  have hlead : x.shape.length - ((padPairs pads).reverse).length = 2 := by rw [hx, hl]; simp only [List.length_cons]; omega
  constructor
  · simp only [padZeros, hlead]
    rw [hx]
    simp
  · intro b c pos hp
    have hpl : pos.length = sp.length := by rw [hp.length, zipWith_length _ _ _ hl]
    simp only [padZeros, hlead, zeroRead, List.length_cons, List.length_nil]
    rw [hx]
    simp only [List.drop_succ_cons, List.drop_zero, List.take_succ_cons, List.take_zero]
    by_cases h : List.Forall₂ (fun (i : ℕ) (a : ℕ × (ℕ × ℕ)) => a.2.1 ≤ i ∧ i < a.2.1 + a.1) pos (List.zip sp (padPairs pads).reverse)
    · rw [if_pos h, if_pos ((read_cond sp _ pos hl hpl).1 h), toNat_zipWith]
    · rw [if_neg h, if_neg (fun h' => h ((read_cond sp _ pos hl hpl).2 h'))]

theorem zipWith_zero (sp : List ℕ) : ∀ lr : List (ℕ × ℕ), lr.length = sp.length → (∀ p ∈ lr, p = (0, 0)) → List.zipWith (fun n p => p.1 + n + p.2) sp lr = sp := by
  induction sp with
  | nil => intro lr _ _; simp
  | cons n sp ih =>
    intro lr h1 h2
    cases lr with
    | nil => simp at h1
    | cons q lr =>
      simp only [List.length_cons, Nat.add_right_cancel_iff] at h1
      rw [List.zipWith_cons_cons, ih lr h1 fun p hp => h2 p (List.mem_cons_of_mem _ hp), h2 q (by simp)]
      simp

theorem paddedBy_self (x : NdTensor K) (bt ch : ℕ) (sp : List ℕ) (lr : List (ℕ × ℕ)) (hx : x.shape = bt :: ch :: sp) (hl : lr.length = sp.length)
    (hz : ∀ p ∈ lr, p = (0, 0)) : PaddedBy x x bt ch sp lr := by
  constructor
  · rw [hx, zipWith_zero sp lr hl hz]
  · intro b c pos hp
    rw [zipWith_zero sp lr hl hz] at hp
    have hpl := hp.length
    have hconv : List.zipWith (fun (i : ℕ) (p : ℕ × ℕ) => (i : ℤ) - p.1) pos lr = pos.map (fun i : ℕ => (i : ℤ)) := by
      clear hx hp
      induction pos generalizing lr sp with
      | nil => rfl
      | cons i pos ih =>
        cases lr with
        | nil => simp at hl hpl; omega
        | cons q lr =>
          cases sp with
          | nil => simp at hl
          | cons n sp =>
            simp only [List.length_cons, Nat.add_right_cancel_iff] at hl hpl
            rw [List.zipWith_cons_cons, List.map_cons, ih sp lr hl (fun p hp => hz p (List.mem_cons_of_mem _ hp)) hpl, hz q (by simp)]
            simp
    rw [hconv, zeroRead, hx]
    simp only [List.length_cons, List.length_nil, List.drop_succ_cons, List.drop_zero]
    rw [if_pos, List.map_map]
    · have : Int.toNat ∘ (fun i : ℕ => (i : ℤ)) = id := by funext i; simp
      rw [this]
      simp
    · rw [List.forall₂_map_left_iff]
      exact List.Forall₂.imp (fun a b h => ⟨by omega, by omega⟩) hp

/-- What a convolution of the padded input computes. -/
theorem convNd_padded (x x' w : NdTensor K) (bias : Option (List ℕ → K)) (bt ch out cg groups : ℕ) (sp ks stride dilation : List ℕ) (lr : List (ℕ × ℕ))
    (hp : PaddedBy x x' bt ch sp lr) (hw : w.shape = out :: cg :: ks) (hl : lr.length = sp.length) (h1 : sp.length = ks.length)
    (h2 : stride.length = ks.length) (h3 : dilation.length = ks.length) (hg : 0 < groups) (hch : ch = cg * groups) (hout : out % groups = 0)
    (hs : ∀ s ∈ stride, 0 < s)
    (hfit : ∀ a ∈ zip4 (List.zipWith (fun n p => p.1 + n + p.2) sp lr) ks stride dilation, (a.2.1 - 1) * a.2.2.2 + 1 ≤ a.1) :
    ∃ y, convNd stride dilation groups x' w bias = some y ∧
      y.shape = bt :: out :: (zip4 (List.zipWith (fun n p => p.1 + n + p.2) sp lr) ks stride dilation).map (fun a => convSize a.1 a.2.1 a.2.2.1 a.2.2.2) ∧
      ∀ b co o, InBounds y.shape (b :: co :: o) → y.data (b :: co :: o) = convSum w bias stride dilation ks (out / groups) cg co o fun c p =>
        zeroRead x [b, c] (List.zipWith (fun (i : ℕ) (q : ℕ × ℕ) => (i : ℤ) - q.1) p lr) := by
  refine ⟨⟨bt :: out :: (zip4 (List.zipWith (fun n p => p.1 + n + p.2) sp lr) ks stride dilation).map (fun a => convSize a.1 a.2.1 a.2.2.1 a.2.2.2), fun idx =>
    convSum w bias stride dilation ks (out / groups) cg (idx.getD 1 0) (idx.drop 2) fun c p => x'.data (idx.getD 0 0 :: c :: p)⟩, ?_, rfl, ?_⟩
  · unfold convNd
    rw [hp.shape, hw]
    simp only
    rw [if_pos ⟨by simp [hl, h1], h2, h3, hg, hch, hout, hs, hfit⟩]
  · intro b co o hb
    cases hb with
    | cons _ hb =>
    cases hb with
    | cons _ hb =>
    simp only [List.getD_cons_succ, List.getD_cons_zero, List.drop_succ_cons, List.drop_zero, convSum]
    congr 2
    apply List.map_congr_left
    intro ci _
    congr 1
    apply List.map_congr_left
    intro t ht
    congr 1
    apply hp.data
    exact tapPos_inBounds _ ks stride dilation o t (by simp [hl, h1]) h2 h3 hs hfit hb ((mem_indices _ _).1 ht)

end SameConv

end Brevitas
