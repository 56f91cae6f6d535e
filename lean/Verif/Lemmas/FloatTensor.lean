import Verif.Model.FloatTensor
import Verif.Lemmas.FloatSpec
import Verif.Lemmas.QuantTensor

/-!
# Lemmas on minifloat quant tensors
-/

set_option linter.unusedSectionVars false

namespace Brevitas

variable {K : Type*} [Field K] [LinearOrder K] [IsStrictOrderedRing K] [FloorRing K]

theorem internalExponent_mono (M : ℕ) (mn : ℤ) {eps : K} (he : 0 < eps) {x y : K} (h : |x| ≤ |y|) :
    internalExponent M mn eps x ≤ internalExponent M mn eps y := by
  have hx : 0 < |x| + eps := by have := abs_nonneg x; linarith
  have hy : 0 < |y| + eps := by have := abs_nonneg y; linarith
  have h1 := (log_bounds hx).1
  have h2 := (log_bounds hy).2
  have : Int.log 2 (|x| + eps) < Int.log 2 (|y| + eps) + 1 := lt_of_two_zpow_lt (K := K) (by linarith)
  unfold internalExponent
  omega

/-- A grid value is a multiple of the internal scale of any value of smaller magnitude. -/
theorem onG_div_int {M : ℕ} {mn : ℤ} {eps : K} (he : 0 < eps) (hsmall : eps < 2 ^ (mn - 1)) {m v : K} (hm : OnG M mn m)
    (h : |v| ≤ |m|) : ∃ j : ℤ, m / 2 ^ internalExponent M mn eps v = j := by
  have hfix := eps_fix torchRound_faithful M mn he hsmall hm
  rw [qAt] at hfix
  obtain ⟨j, hj⟩ : ∃ j : ℤ, j = torchRound (m / 2 ^ internalExponent M mn eps m) := ⟨_, rfl⟩
  rw [← hj] at hfix
  have hle := internalExponent_mono M mn he h
  have e := two_zpow_sub_int (K := K) hle
  refine ⟨2 ^ (internalExponent M mn eps m - internalExponent M mn eps v).toNat * j, ?_⟩
  rw [div_eq_iff (two_zpow_pos _).ne']
  rw [e] at hfix
  refine hfix.symm.trans ?_
  push_cast
  ring

theorem FloatQT.preRound_int (q : FloatQT K) {eps : K} (he : 0 < eps) (hsmall : eps < 2 ^ (1 - q.bias - q.M - 1))
    (hs : 0 < q.scale) (hs1 : q.scale ≤ 1) {m : K} (hm : OnG q.M (1 - q.bias - q.M) m) :
    ∃ j : ℤ, q.preRound eps (m * q.scale) = j ∧ (j : K) * q.intScale eps (m * q.scale) = m := by
  have hle : |m * q.scale| ≤ |m| := by
    rw [abs_mul, abs_of_pos hs]
    exact mul_le_of_le_one_right (abs_nonneg m) hs1
  obtain ⟨j, hj⟩ := onG_div_int he hsmall hm hle
  refine ⟨j, ?_, ?_⟩
  · rw [FloatQT.preRound, mul_div_cancel_right₀ m hs.ne']
    exact hj
  · rw [← hj]
    exact div_mul_cancel₀ m (two_zpow_pos _).ne'

theorem FloatQT.exact (q : FloatQT K) {eps atol : K} (he : 0 < eps) (hsmall : eps < 2 ^ (1 - q.bias - q.M - 1)) (ha : 0 < atol)
    (hs : 0 < q.scale) (hs1 : q.scale ≤ 1) {ms : List K} (hne : ms ≠ []) (hm : ∀ m ∈ ms, OnG q.M (1 - q.bias - q.M) m)
    (hv : q.value = ms.map fun m => m * q.scale) :
    q.isValid eps atol = some true ∧ q.minifloat eps atol = some ms := by
  have hvalid : q.isValid eps atol = some true := by
    rw [FloatQT.isValid, if_neg (by rw [hv]; simpa using hne), Option.some.injEq, List.all_eq_true]
    intro v hv'
    rw [hv] at hv'
    obtain ⟨m, hmem, rfl⟩ := List.mem_map.mp hv'
    obtain ⟨j, hj, -⟩ := q.preRound_int he hsmall hs hs1 (hm m hmem)
    rw [hj, torchRound_faithful.int]
    simpa using ha
  refine ⟨hvalid, ?_⟩
  rw [FloatQT.minifloat, hvalid]
  simp only [Option.some.injEq]
  rw [hv, List.map_map]
  conv_rhs => rw [← List.map_id ms]
  apply List.map_congr_left
  intro m hmem
  obtain ⟨j, hj, hj'⟩ := q.preRound_int he hsmall hs hs1 (hm m hmem)
  simp only [Function.comp, hj, torchRound_faithful.int, id]
  exact hj'

theorem Rep.abs {E M : ℕ} {bias : ℤ} {signed : Bool} {v : K} (h : Spec.Representable E M bias signed v) :
    Spec.Representable E M bias false |v| := by
  obtain ⟨e, m, he, hm, h | ⟨-, h⟩⟩ := h
  · exact ⟨e, m, he, hm, Or.inl (by rw [h, abs_of_nonneg (floatValue_nonneg _ _ _ _)])⟩
  · exact ⟨e, m, he, hm, Or.inl (by rw [h, abs_neg, abs_of_nonneg (floatValue_nonneg _ _ _ _)])⟩

end Brevitas
