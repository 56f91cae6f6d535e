import Verif.Model.EpInit
import Mathlib.Algebra.Order.BigOperators.Group.List
import Mathlib.Algebra.Order.Ring.Abs
import Mathlib.Data.List.GetD
import Mathlib.Data.Rat.Floor
import Mathlib.Tactic.Linarith
import Mathlib.Tactic.Ring
import Mathlib.Tactic.NormNum

/-!
# C77: Euclidean-projection initialisation
-/

set_option linter.unusedSectionVars false

namespace Brevitas.Props

open Brevitas EpInit

variable {K : Type*} [Field K] [LinearOrder K] [IsStrictOrderedRing K]

/-- Sum of absolute values. -/
def absSum (v : List K) : K := (v.map fun x => |x|).sum

/-- Squared Euclidean distance. -/
def sqDist (v w : List K) : K := (List.zipWith (fun x y => (x - y) ^ 2) v w).sum

/-! ## Lemmas -/

/-- Soft threshold. -/
def soft (θ x : K) : K := sign x * max (|x| - θ) 0

theorem sum_zipWith_le : ∀ (v w : List K) (θ : K), v.length = w.length → 0 ≤ θ →
    sqDist v (v.map (soft θ)) + sqDist (v.map (soft θ)) w - 2 * θ * (absSum w - absSum (v.map (soft θ))) ≤ sqDist v w
  | [], [], θ, _, _ => by simp [sqDist, absSum]
  | x :: v, y :: w, θ, h, hθ => by
    have ih := sum_zipWith_le v w θ (by simpa using h) hθ
    simp only [sqDist, absSum, List.map_cons, List.zipWith_cons_cons, List.sum_cons] at ih ⊢
    have key : (x - soft θ x) ^ 2 + (soft θ x - y) ^ 2 - 2 * θ * (|y| - |soft θ x|) ≤ (x - y) ^ 2 := by
      unfold soft sign
      have hy1 := neg_abs_le y
      have hy2 := le_abs_self y
      rcases lt_trichotomy x 0 with hx | hx | hx
      · rw [if_neg (by linarith), if_pos hx, abs_of_neg hx]
        rcases le_total (-x - θ) 0 with h | h
        · rw [max_eq_right h]
          simp only [mul_zero, abs_zero, sub_zero, zero_sub]
          nlinarith [abs_nonneg y]
        · rw [max_eq_left h, abs_mul, abs_neg, abs_one, one_mul, abs_of_nonneg h]
          nlinarith [abs_nonneg y]
      · rw [hx, if_neg (lt_irrefl _), if_neg (lt_irrefl _)]
        simp only [zero_mul, abs_zero, sub_zero, zero_sub]
        nlinarith [mul_nonneg hθ (abs_nonneg y)]
      · rw [if_pos hx, abs_of_pos hx, one_mul]
        rcases le_total (x - θ) 0 with h | h
        · rw [max_eq_right h]
          simp only [abs_zero, sub_zero, zero_sub]
          nlinarith [abs_nonneg y]
        · rw [max_eq_left h, abs_of_nonneg h]
          nlinarith [abs_nonneg y]
    nlinarith

theorem sortDesc_perm (v : List K) : (sortDesc v).Perm v :=
  (List.reverse_perm _).trans (List.perm_insertionSort _ _)

theorem sortDesc_pairwise (v : List K) : (sortDesc v).Pairwise (· ≥ ·) := by
  unfold sortDesc
  rw [List.pairwise_reverse]
  exact List.pairwise_insertionSort (· ≤ ·) v

theorem getD_anti {u : List K} (hu : u.Pairwise (· ≥ ·)) {i j : ℕ} (hij : i ≤ j) (hj : j < u.length) : u.getD j 0 ≤ u.getD i 0 := by
  rcases hij.lt_or_eq with h | h
  · rw [List.getD_eq_getElem _ _ hj, List.getD_eq_getElem _ _ (by omega)]
    exact List.pairwise_iff_getElem.1 hu i j (by omega) hj h
  · rw [h]

theorem rho_spec {u : List K} {radius : K} (hr : 0 < radius) (hne : u ≠ []) :
    ∃ r, rho u radius = some r ∧ r < u.length ∧ cumsum u r - radius < u.getD r 0 * ((r + 1 : ℕ) : K) ∧
      ∀ j, r < j → j < u.length → u.getD j 0 * ((j + 1 : ℕ) : K) ≤ cumsum u j - radius := by
  obtain ⟨l, hl⟩ : ∃ l, l = (List.range u.length).filter fun j => decide (u.getD j 0 * ((j + 1 : ℕ) : K) > cumsum u j - radius) :=
    ⟨_, rfl⟩
  have hmem : ∀ j, j ∈ l ↔ j < u.length ∧ cumsum u j - radius < u.getD j 0 * ((j + 1 : ℕ) : K) := by
    intro j
    rw [hl]
    simp
  have h0 : 0 ∈ l := by
    rw [hmem]
    cases u with
    | nil => exact absurd rfl hne
    | cons a u => exact ⟨by simp, by simp [cumsum, hr]⟩
  have hlne : l ≠ [] := List.ne_nil_of_mem h0
  have hsorted : l.Pairwise (· < ·) := by
    rw [hl]
    exact List.Pairwise.filter _ List.pairwise_lt_range
  refine ⟨l.getLast hlne, ?_, ?_⟩
  · unfold rho
    rw [← hl]
    exact List.getLast?_eq_some_getLast hlne
  · obtain ⟨h1, h2⟩ := (hmem _).1 (List.getLast_mem hlne)
    refine ⟨h1, h2, fun j hj hjl => ?_⟩
    by_contra hc
    have hjm : j ∈ l := (hmem j).2 ⟨hjl, not_le.1 hc⟩
    rw [← List.dropLast_append_getLast hlne] at hjm hsorted
    rcases List.mem_append.1 hjm with h | h
    · have := (List.pairwise_append.1 hsorted).2.2 j h _ (List.mem_singleton.2 rfl)
      omega
    · rw [List.mem_singleton] at h
      omega

/-- The threshold found by the algorithm is not negative, and leaves exactly the radius. -/
theorem threshold {v : List K} {radius : K} (hr : 0 < radius) (hv : ∀ x ∈ v, 0 ≤ x) (hsum : radius < v.sum) :
    ∃ θ, 0 ≤ θ ∧ simplexProj v radius = some (v.map fun x => max (x - θ) 0) ∧ (v.map fun x => max (x - θ) 0).sum = radius := by
  have hne : v ≠ [] := by
    rintro rfl
    simp at hsum
    linarith
  obtain ⟨u, hu⟩ : ∃ u, u = sortDesc v := ⟨_, rfl⟩
  have hperm : u.Perm v := by rw [hu]; exact sortDesc_perm v
  have hpw : u.Pairwise (· ≥ ·) := by rw [hu]; exact sortDesc_pairwise v
  have hune : u ≠ [] := by
    rintro rfl
    exact hne (List.nil_perm.1 hperm)
  have hu0 : ∀ x ∈ u, 0 ≤ x := fun x hx => hv x (hperm.mem_iff.1 hx)
  obtain ⟨r, hr1, hr2, hr3, hr4⟩ := rho_spec hr hune
  obtain ⟨θ, hθ⟩ : ∃ θ, θ = (cumsum u r - radius) / ((r + 1 : ℕ) : K) := ⟨_, rfl⟩
  have hpos : (0 : K) < ((r + 1 : ℕ) : K) := by exact_mod_cast Nat.succ_pos r
  have hmul : θ * ((r + 1 : ℕ) : K) = cumsum u r - radius := by rw [hθ, div_mul_cancel₀ _ hpos.ne']
  have hlt : θ < u.getD r 0 := by
    rw [hθ, div_lt_iff₀ hpos]
    exact hr3
  have hhigh : ∀ j, j ≤ r → θ < u.getD j 0 := fun j hj => lt_of_lt_of_le hlt (getD_anti hpw hj hr2)
  have hnext : r + 1 < u.length → u.getD (r + 1) 0 ≤ θ := by
    intro h
    have h1 := hr4 (r + 1) (Nat.lt_succ_self r) h
    have h2 : cumsum u (r + 1) = cumsum u r + u.getD (r + 1) 0 := by
      unfold cumsum
      rw [List.take_succ_eq_append_getElem h, List.sum_append, List.getD_eq_getElem _ _ h]
      simp
    rw [h2] at h1
    rw [hθ, le_div_iff₀ hpos]
    push_cast at h1 ⊢
    linarith
  have hlow : ∀ j, r < j → j < u.length → u.getD j 0 ≤ θ := fun j hj hjl =>
    le_trans (getD_anti hpw hj hjl) (hnext (by omega))
  have hsplit : (u.map fun x => max (x - θ) 0).sum = radius := by
    rw [← List.take_append_drop (r + 1) u, List.map_append, List.sum_append]
    have h1 : (u.take (r + 1)).map (fun x => max (x - θ) 0) = (u.take (r + 1)).map fun x => x - θ := by
      apply List.map_congr_left
      intro x hx
      obtain ⟨j, hj, rfl⟩ := List.getElem_of_mem hx
      rw [List.length_take] at hj
      rw [List.getElem_take]
      have := hhigh j (by omega)
      rw [List.getD_eq_getElem _ _ (by omega)] at this
      exact max_eq_left (by linarith)
    have h2 : ((u.drop (r + 1)).map fun x => max (x - θ) 0).sum = 0 := by
      apply List.sum_eq_zero
      intro x hx
      obtain ⟨y, hy, rfl⟩ := List.mem_map.1 hx
      obtain ⟨j, hj, rfl⟩ := List.getElem_of_mem hy
      rw [List.length_drop] at hj
      rw [List.getElem_drop]
      have := hlow (r + 1 + j) (by omega) (by omega)
      rw [List.getD_eq_getElem _ _ (by omega)] at this
      exact max_eq_right (by linarith)
    have h3 : ∀ l : List K, (l.map fun x => x - θ).sum = l.sum - l.length * θ := by
      intro l
      induction l with
      | nil => simp
      | cons a l ih =>
        simp only [List.map_cons, List.sum_cons, ih, List.length_cons]
        push_cast
        ring
    rw [h1, h2, h3, List.length_take, min_eq_left (by omega), add_zero]
    have : (u.take (r + 1)).sum = cumsum u r := rfl
    rw [this]
    linarith
  refine ⟨θ, ?_, ?_, ?_⟩
  · by_cases h : r + 1 < u.length
    · refine le_trans ?_ (hnext h)
      rw [List.getD_eq_getElem _ _ h]
      exact hu0 _ (List.getElem_mem h)
    · have hall : cumsum u r = u.sum := by
        unfold cumsum
        rw [List.take_of_length_le (by omega)]
      rw [hθ, hall, hperm.sum_eq]
      exact div_nonneg (by linarith) hpos.le
  · unfold simplexProj
    rw [if_neg (by simpa using hr), if_neg hne, if_neg (by simpa using hv), if_neg (by linarith)]
    simp only
    rw [← hu, hr1, Option.map_some, ← hθ]
  · rw [← hsplit]
    exact (hperm.map _).sum_eq.symm

/-! ## C77 -/

/-- What the projection returns: the vector itself inside the ball, a soft threshold of it on the sphere otherwise. -/
theorem l1Proj_cases (v : List K) (hv : v ≠ []) (radius : K) (hr : 0 < radius) :
    (absSum v ≤ radius ∧ l1Proj v radius = some v) ∨
    (radius < absSum v ∧ ∃ θ, 0 ≤ θ ∧ l1Proj v radius = some (v.map (soft θ)) ∧ absSum (v.map (soft θ)) = radius) := by
  have habs : ∀ x ∈ v.map fun x => |x|, 0 ≤ x := by
    intro x hx
    obtain ⟨y, _, rfl⟩ := List.mem_map.1 hx
    exact abs_nonneg y
  have hsign : ∀ x : K, sign x * |x| = x := by
    intro x
    unfold sign
    rcases lt_trichotomy x 0 with h | h | h
    · rw [if_neg (by linarith), if_pos h, abs_of_neg h]
      ring
    · rw [h]
      simp
    · rw [if_pos h, abs_of_pos h, one_mul]
  rcases le_or_gt (absSum v) radius with h | h
  · left
    refine ⟨h, ?_⟩
    unfold l1Proj simplexProj
    rw [if_neg (by simpa using hr), if_neg (by simpa using hv), if_neg (by push Not; exact habs),
      if_pos (show (v.map fun x => |x|).sum ≤ radius from h), Option.map_some,
      List.zipWith_map, List.zipWith_self]
    congr 1
    conv_rhs => rw [← List.map_id v]
    exact List.map_congr_left fun x _ => hsign x
  · right
    obtain ⟨θ, h0, h1, h2⟩ := threshold hr habs h
    refine ⟨h, θ, h0, ?_, ?_⟩
    · unfold l1Proj
      rw [h1, Option.map_some, List.map_map, List.zipWith_map, List.zipWith_self]
      rfl
    · rw [← h2]
      unfold absSum
      rw [List.map_map, List.map_map]
      congr 1
      apply List.map_congr_left
      intro x _
      have hm : (0 : K) ≤ max (|x| - θ) 0 := le_max_right _ _
      simp only [Function.comp, soft, abs_mul, abs_of_nonneg hm]
      by_cases hx : x = 0
      · rw [hx, abs_zero, max_eq_right (by linarith)]
        simp
      · have : |sign x| = 1 := by
          unfold sign
          rcases lt_or_gt_of_ne hx with h | h
          · rw [if_neg (by linarith), if_pos h, abs_neg, abs_one]
          · rw [if_pos h, abs_one]
        rw [this, one_mul]

theorem sqDist_nonneg : ∀ v w : List K, 0 ≤ sqDist v w
  | [], _ => by simp [sqDist]
  | _ :: _, [] => by simp [sqDist]
  | x :: v, y :: w => by
    have := sqDist_nonneg v w
    simp only [sqDist, List.zipWith_cons_cons, List.sum_cons] at this ⊢
    nlinarith [sq_nonneg (x - y)]

theorem sqDist_self (v : List K) : sqDist v v = 0 := by
  unfold sqDist
  rw [List.zipWith_self]
  apply List.sum_eq_zero
  intro x hx
  obtain ⟨y, _, rfl⟩ := List.mem_map.1 hx
  simp

/-- Projecting one channel gives the closest vector within the radius.  For every vector that is not empty and every positive radius the
function returns a vector of the same length whose absolute values sum up to at most the radius, and every vector within the radius
is at least as far away, by at least the squared distance of the two: so the returned vector is the only closest one. -/
theorem C77_closest (v : List K) (hv : v ≠ []) (radius : K) (hr : 0 < radius) :
    ∃ p, l1Proj v radius = some p ∧ p.length = v.length ∧ absSum p ≤ radius ∧
      ∀ w : List K, w.length = v.length → absSum w ≤ radius → sqDist v p + sqDist p w ≤ sqDist v w := by
  rcases l1Proj_cases v hv radius hr with ⟨h, h1⟩ | ⟨h, θ, h0, h1, h2⟩
  · exact ⟨v, h1, rfl, h, fun w _ _ => by rw [sqDist_self, zero_add]⟩
  · refine ⟨_, h1, by simp, h2.le, fun w hl hw => ?_⟩
    have := sum_zipWith_le v w θ hl.symm h0
    rw [h2] at this
    nlinarith [mul_nonneg h0 (sub_nonneg.2 hw)]

/-- A vector within the radius is returned as it is; otherwise the sum of the absolute values becomes the radius, no less. -/
theorem C77_norm (v : List K) (hv : v ≠ []) (radius : K) (hr : 0 < radius) :
    ∃ p, l1Proj v radius = some p ∧ absSum p = min (absSum v) radius ∧ (absSum v ≤ radius → p = v) := by
  rcases l1Proj_cases v hv radius hr with ⟨h, h1⟩ | ⟨h, θ, h0, h1, h2⟩
  · exact ⟨v, h1, (min_eq_left h).symm, fun _ => rfl⟩
  · exact ⟨_, h1, by rw [h2, min_eq_right h.le], fun h' => absurd h' (not_le.2 h)⟩

/-- No weight changes sign and none grows. -/
theorem C77_signs (v p : List K) (radius : K) (hp : l1Proj v radius = some p) (i : ℕ) :
    0 ≤ v.getD i 0 * p.getD i 0 ∧ |p.getD i 0| ≤ |v.getD i 0| := by
  have hv : v ≠ [] := by
    rintro rfl
    simp [l1Proj, simplexProj] at hp
  have hr : 0 < radius := by
    by_contra h
    simp [l1Proj, simplexProj, h] at hp
  rcases l1Proj_cases v hv radius hr with ⟨h, h1⟩ | ⟨h, θ, h0, h1, h2⟩
  · rw [h1] at hp
    obtain rfl := Option.some.inj hp
    exact ⟨mul_self_nonneg _, le_refl _⟩
  · rw [h1] at hp
    obtain rfl := Option.some.inj hp
    have hz : soft θ 0 = 0 := by simp [soft, sign]
    rw [show (v.map (soft θ)).getD i 0 = soft θ (v.getD i 0) by
      conv_lhs => rw [← hz]
      rw [List.getD_map]]
    generalize v.getD i 0 = x
    unfold soft sign
    rcases lt_trichotomy x 0 with hx | hx | hx
    · rw [if_neg (by linarith), if_pos hx, abs_of_neg hx]
      rcases le_total (-x - θ) 0 with h | h
      · rw [max_eq_right h]
        simp only [mul_zero, abs_zero, le_refl, true_and]
        linarith
      · rw [max_eq_left h, abs_mul, abs_neg, abs_one, one_mul, abs_of_nonneg h]
        constructor <;> nlinarith
    · rw [hx]
      simp
    · rw [if_pos hx, abs_of_pos hx, one_mul]
      rcases le_total (x - θ) 0 with h | h
      · rw [max_eq_right h]
        simp only [mul_zero, abs_zero, le_refl, true_and]
        linarith
      · rw [max_eq_left h, abs_of_nonneg h]
        constructor <;> nlinarith

/-- The vector `(3, -1)` within radius 2: its projection is `(2, 0)`. -/
example : l1Proj [(3 : ℚ), -1] 2 = some [2, 0] ∧ l1Proj [(3 : ℚ), -2, 1] 3 = some [2, -1, 0] ∧ l1Proj [(1 : ℚ), 0] 2 = some [1, 0] := by
  decide +kernel

/-- Every channel of a matrix is projected on its own: with one radius for all, or one per channel. -/
theorem C77_matrix (weights : List (List K)) (hw : ∀ w ∈ weights, w ≠ []) (radius : Radius K) (zs : List K)
    (hz : (∃ r, radius = .tensor r ∧ zs = List.replicate weights.length r) ∨ (radius = .channels zs ∧ zs.length = weights.length))
    (hpos : ∀ z ∈ zs, 0 < z) :
    ∃ ps, l1ProjMatrix weights radius = some ps ∧ ps.length = weights.length ∧
      ∀ i (h : i < weights.length), l1Proj weights[i] (zs.getD i 0) = ps[i]? := by
  have hrows : ∀ (ws : List (List K)) (zs : List K), (∀ w ∈ ws, w ≠ []) → (∀ z ∈ zs, 0 < z) → zs.length = ws.length →
      ∃ ps, projRows ws zs = some ps ∧ ps.length = ws.length ∧ ∀ i (h : i < ws.length), l1Proj ws[i] (zs.getD i 0) = ps[i]? := by
    intro ws
    induction ws with
    | nil => exact fun zs _ _ _ => ⟨[], by cases zs <;> rfl, rfl, fun i h => absurd h (by simp)⟩
    | cons w ws ih =>
      intro zs hw hz hl
      cases zs with
      | nil => simp at hl
      | cons z zs =>
        obtain ⟨ps, h1, h2, h3⟩ := ih zs (fun w h => hw w (by simp [h])) (fun z h => hz z (by simp [h])) (by simpa using hl)
        obtain ⟨p, hp, -⟩ := C77_closest w (hw w (by simp)) z (hz z (by simp))
        refine ⟨p :: ps, by simp [projRows, hp, h1], by simp [h2], ?_⟩
        intro i h
        cases i with
        | zero => simpa using hp
        | succ i => simpa using h3 i (by simpa using h)
  rcases hz with ⟨r, rfl, rfl⟩ | ⟨rfl, hl⟩
  · obtain ⟨ps, h1, h2, h3⟩ := hrows weights _ hw hpos (by simp)
    exact ⟨ps, by simp [l1ProjMatrix, Radius.perChannel, h1], h2, h3⟩
  · obtain ⟨ps, h1, h2, h3⟩ := hrows weights _ hw hpos hl
    exact ⟨ps, by simp [l1ProjMatrix, Radius.perChannel, hl, h1], h2, h3⟩

example : l1ProjMatrix [[(3 : ℚ), -1], [1, 1]] (.channels [2, 4]) = some [[2, 0], [1, 1]] := by decide +kernel

/-- After the initialisation the accumulator-aware quantiser no longer rescales the weights: for every channel with a weight that is not zero
and a learned norm initialised to that of the weights, it returns the weights divided by the scale, rounded to zero and clipped,
times the scale. -/
theorem C77_no_rescaling [FloorRing K] (b P N : ℕ) (inputIsSigned : Bool) (s : K) (hs : 0 < s) (ws : List K) (hne : absSum ws ≠ 0)
    (hT : 0 < (a2qMaxNorm P N inputIsSigned : K)) :
    ∃ ws' g', epInitChannel (a2qMaxNorm P N inputIsSigned) s (absSum ws) ws = some (ws', g') ∧
      a2qQuant b P N inputIsSigned none s g' ws' = some (ws'.map fun w => a2qCfg.decoupledForward s 0 s 0 b w, s) := by
  have hws : ws ≠ [] := by
    rintro rfl
    simp [absSum] at hne
  have hn0 : 0 ≤ absSum ws := List.sum_nonneg fun x hx => by
    obtain ⟨y, _, rfl⟩ := List.mem_map.1 hx
    exact abs_nonneg y
  have hnpos : 0 < absSum ws := lt_of_le_of_ne hn0 (Ne.symm hne)
  obtain ⟨T, hTe⟩ : ∃ T : K, T = a2qMaxNorm P N inputIsSigned := ⟨_, rfl⟩
  rw [← hTe] at hT ⊢
  obtain ⟨p, hp, hpn, -⟩ := C77_norm ws hws (s * T) (mul_pos hs hT)
  refine ⟨p, _, by unfold epInitChannel; rw [hp]; rfl, ?_⟩
  have hg : (if absSum ws ≤ s * T then absSum ws else s * T) = absSum p := by rw [hpn, min_def]
  have hppos : 0 < absSum p := by rw [hpn]; exact lt_min hnpos (mul_pos hs hT)
  have hle : absSum p / s ≤ T := by
    rw [div_le_iff₀ hs, hpn, mul_comm]
    exact min_le_right _ _
  have hl1 : l1Norm p = absSum p := rfl
  rw [hg]
  unfold a2qQuant a2qPreScaling
  simp only [hl1, abs_of_pos hppos, if_neg hs.ne', ← hTe, min_eq_left hle, if_neg (div_pos hppos hs).ne', clampMinVal]
  have : absSum p / (absSum p / s) = s := by
    field_simp
  simp [this, hs.ne']

/-- Weights `(3, -1)`, scale 1/4, 8-bit signed inputs, 10-bit accumulator: budget 511/128, radius about 1, so the weights are projected. -/
example : 0 < (a2qMaxNorm 10 8 true : ℚ) ∧ (1 / 4 : ℚ) * a2qMaxNorm 10 8 true < absSum [(3 : ℚ), -1] ∧
    (epInitChannel (a2qMaxNorm 10 8 true) (1 / 4) (absSum [(3 : ℚ), -1]) [3, -1]).isSome = true := by
  decide +kernel

end Brevitas.Props
