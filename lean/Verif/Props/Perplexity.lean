import Verif.Model.Perplexity
import Verif.Spec.Perplexity
import Mathlib.Data.List.GetD

/-!
# C133: the perplexity reported for a language model
-/

namespace Brevitas.Props

open Brevitas.Perplexity

/-! ## Windows -/

private theorem window_length (t : List ℕ) (s i : ℕ) (h : (i + 1) * s ≤ t.length) : ((t.take ((i + 1) * s)).drop (i * s)).length = s := by
  rw [List.length_drop, List.length_take, Nat.min_eq_left h, Nat.add_mul]
  omega

private theorem windows_flatten (t : List ℕ) (s n : ℕ) (h : n * s ≤ t.length) : ((List.range n).map fun i => (t.take ((i + 1) * s)).drop (i * s)).flatten = t.take (n * s) := by
  induction n with
  | zero => simp
  | succ n ih =>
    have hn : n * s ≤ t.length := by rw [Nat.add_mul] at h; omega
    rw [List.range_succ, List.map_append, List.flatten_append, ih hn]
    simp only [List.map_cons, List.map_nil, List.flatten_cons, List.flatten_nil, List.append_nil]
    have : t.take (n * s) = (t.take ((n + 1) * s)).take (n * s) := by
      rw [List.take_take, Nat.min_eq_left]
      rw [Nat.add_mul]; omega
    rw [this, List.take_append_drop]

/-- C133, the windows of one sequence of tokens: they have the given length, follow each other without gap or overlap from the first token, and fewer tokens than one window
are left over. -/
theorem C133_windows (t : List ℕ) (s : ℕ) (hs : 0 < s) :
    ∃ ws : List (List ℕ), validationData [t] s = some (ws.map fun w => [w]) ∧ (∀ w ∈ ws, w.length = s) ∧ ∃ rest, t = ws.flatten ++ rest ∧ rest.length < s := by
  have hle : t.length / s * s ≤ t.length := Nat.div_mul_le_self _ _
  refine ⟨(List.range (t.length / s)).map fun i => (t.take ((i + 1) * s)).drop (i * s), ?_, ?_, t.drop (t.length / s * s), ?_, ?_⟩
  · unfold validationData
    rw [if_neg (by omega)]
    simp [window, Function.comp_def]
  · intro w hw
    obtain ⟨i, hi, rfl⟩ := List.mem_map.mp hw
    have : (i + 1) * s ≤ t.length / s * s := Nat.mul_le_mul_right s (List.mem_range.mp hi)
    exact window_length t s i (by omega)
  · rw [windows_flatten t s _ hle, List.take_append_drop]
  · rw [List.length_drop]
    have h1 := Nat.div_add_mod t.length s
    have h2 := Nat.mod_lt t.length hs
    have h3 : t.length / s * s = s * (t.length / s) := Nat.mul_comm _ _
    omega

/-! ## Perplexity -/

/-- A model on windows of one row, with a row of logits for every token. -/
def oneRow (f : List ℕ → List (List ℝ)) (batch : List (List ℕ)) : List (List (List ℝ)) := batch.map f

/-- The logits fit the window: one row for every token, and all tokens in the vocabulary of each row. -/
def LogitsFit (f : List ℕ → List (List ℝ)) (w : List ℕ) : Prop := (f w).length = w.length ∧ ∀ z ∈ f w, ∀ x ∈ w, x < z.length

private theorem exp_sum_pos (z : List ℝ) (k : ℕ) (h : k < z.length) : 0 < (z.map Real.exp).sum := by
  cases z with
  | nil => simp at h
  | cons a l =>
    rw [List.map_cons, List.sum_cons]
    have : 0 ≤ (l.map Real.exp).sum := List.sum_nonneg fun x hx => by
      obtain ⟨y, -, rfl⟩ := List.mem_map.mp hx
      exact (Real.exp_pos y).le
    have := Real.exp_pos a
    linarith

private theorem tokenLoss_eq (z : List ℝ) (k : ℕ) (h : k < z.length) : ∃ l, tokenLoss z k = some l ∧ Spec.probability z k = Real.exp (-l) := by
  refine ⟨Real.log ((z.map Real.exp).sum) - z[k], ?_, ?_⟩
  · unfold tokenLoss
    rw [List.getElem?_eq_getElem h]
    rfl
  · unfold Spec.probability
    rw [List.getD_eq_getElem _ _ h, neg_sub, Real.exp_sub, Real.exp_log (exp_sum_pos z k h)]

private theorem mapM_loss : ∀ (zs : List (List ℝ)) (ks : List ℕ), zs.length = ks.length → (∀ z ∈ zs, ∀ k ∈ ks, k < z.length) →
    ∃ ls : List ℝ, ((List.zip zs ks).mapM fun p => tokenLoss p.1 p.2) = some ls ∧ List.zipWith Spec.probability zs ks = ls.map fun l => Real.exp (-l) := by
  intro zs
  induction zs with
  | nil => intro ks _ _; exact ⟨[], by simp, by simp⟩
  | cons z zs ih =>
    intro ks hl hk
    cases ks with
    | nil => simp at hl
    | cons k ks =>
      obtain ⟨l, h1, h2⟩ := tokenLoss_eq z k (hk z List.mem_cons_self k List.mem_cons_self)
      obtain ⟨ls, h3, h4⟩ := ih ks (by simpa using hl) (fun z' hz k' hk' => hk z' (List.mem_cons_of_mem _ hz) k' (List.mem_cons_of_mem _ hk'))
      refine ⟨l :: ls, ?_, ?_⟩
      · rw [List.zip_cons_cons, List.mapM_cons, h1, h3]
        rfl
      · rw [List.zipWith_cons_cons, h2, h4, List.map_cons]

private theorem predictions_eq (f : List ℕ → List (List ℝ)) (w : List ℕ) (hf : (f w).length = w.length) :
    Spec.predictions (f w) w = List.zipWith Spec.probability (f w).dropLast w.tail := by
  unfold Spec.predictions
  apply List.ext_getElem
  · simp [hf]
  · intro i h1 h2
    simp only [List.length_map, List.length_range] at h1
    have e1 : i < (f w).length := by omega
    have e2 : i + 1 < w.length := by omega
    simp [List.getD_eq_getElem?_getD, e1, e2]

private theorem prod_exp (l : List ℝ) : (l.map fun x => Real.exp (-x)).prod = Real.exp (-l.sum) := by
  induction l with
  | nil => simp
  | cons a l ih =>
    rw [List.map_cons, List.prod_cons, ih, List.sum_cons, ← Real.exp_add]
    congr 1
    ring

private theorem windowLoss_eq (f : List ℕ → List (List ℝ)) (w : List ℕ) (hf : LogitsFit f w) (hw : 2 ≤ w.length) :
    ∃ ls : List ℝ, windowLoss (oneRow f) [w] = some (ls.sum / ls.length) ∧ ls.length = w.length - 1 ∧ Spec.predictions (f w) w = ls.map fun l => Real.exp (-l) := by
  have hlen : (f w).dropLast.length = w.tail.length := by simp [hf.1]
  obtain ⟨ls, h1, h2⟩ := mapM_loss (f w).dropLast w.tail hlen (fun z hz k hk => hf.2 z (List.mem_of_mem_dropLast hz) k (List.mem_of_mem_tail hk))
  have hll : ls.length = w.length - 1 := by
    have := congrArg List.length h2
    simp [hf.1] at this
    omega
  refine ⟨ls, ?_, hll, by rw [predictions_eq f w hf.1, h2]⟩
  unfold windowLoss
  simp only [oneRow, List.map_cons, List.map_nil, List.flatten_cons, List.flatten_nil, List.append_nil, hlen, if_true, h1]
  show meanLoss ls = _
  unfold meanLoss
  rw [if_neg (by omega)]

private theorem eval_loop (f : List ℕ → List (List ℝ)) (s : ℕ) (hs : 2 ≤ s) : ∀ (ws : List (List ℕ)), (∀ w ∈ ws, w.length = s ∧ LogitsFit f w) →
    ∃ (nlls ls : List ℝ), ((ws.map fun w => [w]).mapM fun inps => (windowLoss (oneRow f) inps).map fun loss => loss * (s : ℝ)) = some nlls ∧ nlls.length = ws.length ∧
      nlls.sum = ls.sum / ((s - 1 : ℕ) : ℝ) * s ∧ ls.length = ws.length * (s - 1) ∧ (ws.flatMap fun w => Spec.predictions (f w) w) = ls.map fun l => Real.exp (-l) := by
  intro ws
  induction ws with
  | nil => intro _; exact ⟨[], [], by simp, rfl, by simp, by simp, by simp⟩
  | cons w ws ih =>
    intro h
    obtain ⟨nlls, ls, h1, h2, h3, h4, h5⟩ := ih fun w hw => h w (List.mem_cons_of_mem _ hw)
    obtain ⟨hw, hfit⟩ := h w List.mem_cons_self
    obtain ⟨l, g1, g2, g3⟩ := windowLoss_eq f w hfit (by omega)
    refine ⟨l.sum / l.length * s :: nlls, l ++ ls, ?_, by simp [h2], ?_, ?_, ?_⟩
    · rw [List.map_cons, List.mapM_cons, g1, h1]
      rfl
    · rw [List.sum_cons, List.sum_append, h3, g2, hw]
      ring
    · rw [List.length_append, h4, g2, hw, List.length_cons]
      ring
    · rw [List.flatMap_cons, g3, h5, List.map_append]

/-- C133: for windows of the given length the value reported is the perplexity of the model on all tokens of the windows but the first of each. -/
theorem C133_reported_perplexity (f : List ℕ → List (List ℝ)) (s : ℕ) (hs : 2 ≤ s) (ws : List (List ℕ)) (hne : ws ≠ []) (hw : ∀ w ∈ ws, w.length = s ∧ LogitsFit f w) :
    modelEval (oneRow f) (ws.map fun w => [w]) s = some (Spec.perplexity (ws.flatMap fun w => Spec.predictions (f w) w)) := by
  obtain ⟨nlls, ls, h1, h2, h3, h4, h5⟩ := eval_loop f s hs ws hw
  have hn : 0 < ws.length := List.length_pos_iff.mpr hne
  unfold modelEval
  simp only [h1, Option.bind_eq_bind, Option.bind_some, List.length_map, h2]
  rw [if_neg (by omega)]
  congr 1
  unfold Spec.perplexity
  rw [h5, prod_exp, List.length_map, ← Real.exp_mul, h4, h3]
  congr 1
  have e1 : ((s - 1 : ℕ) : ℝ) ≠ 0 := by
    have : s - 1 ≠ 0 := by omega
    exact_mod_cast this
  have e2 : (s : ℝ) ≠ 0 := by
    have : s ≠ 0 := by omega
    exact_mod_cast this
  have e3 : (ws.length : ℝ) ≠ 0 := by
    have : ws.length ≠ 0 := by omega
    exact_mod_cast this
  push_cast
  field_simp

/-- C133, together: the value reported for a text is the perplexity on its windows. -/
theorem C133_text_perplexity (f : List ℕ → List (List ℝ)) (s : ℕ) (hs : 2 ≤ s) (t : List ℕ) (ht : s ≤ t.length)
    (hf : ∀ w, w.length = s → (∀ x ∈ w, x ∈ t) → LogitsFit f w) :
    ∃ ws : List (List ℕ), ws.flatten <+: t ∧ t.length < ws.flatten.length + s ∧ (∀ w ∈ ws, w.length = s) ∧
      (validationData [t] s).bind (fun d => modelEval (oneRow f) d s) = some (Spec.perplexity (ws.flatMap fun w => Spec.predictions (f w) w)) := by
  obtain ⟨ws, h1, h2, rest, h3, h4⟩ := C133_windows t s (by omega)
  refine ⟨ws, ⟨rest, h3.symm⟩, ?_, h2, ?_⟩
  · have := congrArg List.length h3
    rw [List.length_append] at this
    omega
  · rw [h1, Option.bind_some]
    refine C133_reported_perplexity f s hs ws ?_ fun w hw => ⟨h2 w hw, hf w (h2 w hw) fun x hx => ?_⟩
    · rintro rfl
      have := congrArg List.length h3
      simp at this
      omega
    · rw [h3]
      exact List.mem_append_left _ (List.mem_flatten.mpr ⟨w, hw, hx⟩)

/-- C133: a model that gives every token the same chance is reported with the size of its vocabulary. -/
theorem C133_uniform_model (v s : ℕ) (hs : 2 ≤ s) (ws : List (List ℕ)) (hne : ws ≠ []) (hw : ∀ w ∈ ws, w.length = s ∧ ∀ x ∈ w, x < v) :
    modelEval (oneRow fun w => w.map fun _ => List.replicate v 0) (ws.map fun w => [w]) s = some (v : ℝ) := by
  rw [C133_reported_perplexity _ s hs ws hne]
  · congr 1
    have hall : ∀ p ∈ (ws.flatMap fun w => Spec.predictions (w.map fun _ => List.replicate v (0 : ℝ)) w), p = 1 / (v : ℝ) := by
      intro p hp
      obtain ⟨w, hwm, hp⟩ := List.mem_flatMap.mp hp
      obtain ⟨j, hj, rfl⟩ := List.mem_map.mp hp
      have hj' : j < w.length - 1 := List.mem_range.mp hj
      have e1 : (w.map fun _ => List.replicate v (0 : ℝ)).getD j [] = List.replicate v 0 := by
        rw [List.getD_eq_getElem _ _ (by rw [List.length_map]; omega), List.getElem_map]
      unfold Spec.probability
      rw [e1]
      have e2 : (List.replicate v (0 : ℝ)).getD (w.getD (j + 1) 0) 0 = 0 := by
        rw [List.getD_eq_getElem?_getD, List.getElem?_replicate]
        split_ifs <;> rfl
      rw [e2]
      simp
    have hrep := List.eq_replicate_of_mem hall
    have hpos : 0 < (ws.flatMap fun w => Spec.predictions (w.map fun _ => List.replicate v (0 : ℝ)) w).length := by
      cases ws with
      | nil => exact absurd rfl hne
      | cons w ws =>
        have := (hw w List.mem_cons_self).1
        simp [Spec.predictions]
        omega
    have hv : 0 < v := by
      cases ws with
      | nil => exact absurd rfl hne
      | cons w ws =>
        obtain ⟨h1, h2⟩ := hw w List.mem_cons_self
        have := h2 w[0] (List.getElem_mem (by omega))
        omega
    generalize (ws.flatMap fun w => Spec.predictions (w.map fun _ => List.replicate v (0 : ℝ)) w) = ps at hrep hpos
    unfold Spec.perplexity
    have hvr : (0 : ℝ) < v := by exact_mod_cast hv
    have hN : (ps.length : ℝ) ≠ 0 := by
      have : ps.length ≠ 0 := by omega
      exact_mod_cast this
    conv_lhs => rw [show ps.prod = (1 / (v : ℝ)) ^ ps.length by conv_lhs => rw [hrep, List.prod_replicate]]
    rw [← Real.rpow_natCast, ← Real.rpow_mul (by positivity)]
    have : (ps.length : ℝ) * -(1 / (ps.length : ℝ)) = -1 := by field_simp
    rw [this, Real.rpow_neg_one]
    simp
  · intro w hwm
    obtain ⟨h1, h2⟩ := hw w hwm
    refine ⟨h1, by simp, ?_⟩
    intro z hz x hx
    obtain ⟨_, -, rfl⟩ := List.mem_map.mp hz
    simpa using h2 x hx

/-! ## Disagreements -/

/-- Disagreement: with tokens in several rows, the number of windows is that of all rows together: windows lie beyond the end and nothing is reported. -/
theorem C133_two_rows (model : List (List ℕ) → List (List (List ℝ))) (a b : List ℕ) (s : ℕ) (hs : 0 < s) (ha : a.length = s) (hb : b.length = s) :
    validationData [a, b] s = some [[a, b], [[], []]] ∧ (validationData [a, b] s).bind (fun d => modelEval model d s) = none := by
  have hd : validationData [a, b] s = some [[a, b], [[], []]] := by
    unfold validationData
    rw [if_neg (by omega)]
    have : ([a, b].map List.length).sum / s = 2 := by
      simp [ha, hb]
      rw [← Nat.two_mul, Nat.mul_div_cancel _ hs]
    simp only [this]
    have hr : List.range 2 = [0, 1] := rfl
    rw [hr]
    simp only [List.map_cons, List.map_nil, window, Nat.zero_add, Nat.one_mul, Nat.zero_mul, List.drop_zero]
    have e1 : a.take s = a := by rw [← ha, List.take_length]
    have e2 : b.take s = b := by rw [← hb, List.take_length]
    have e3 : (a.take ((1 + 1) * s)).drop s = [] := by rw [List.drop_eq_nil_iff, List.length_take]; omega
    have e4 : (b.take ((1 + 1) * s)).drop s = [] := by rw [List.drop_eq_nil_iff, List.length_take]; omega
    rw [e1, e2, e3, e4]
  refine ⟨hd, ?_⟩
  rw [hd, Option.bind_some]
  have hlast : windowLoss model [[], []] = none := by
    unfold windowLoss
    simp only [List.map_cons, List.map_nil, List.tail_nil, List.flatten_cons, List.flatten_nil, List.append_nil, List.length_nil]
    by_cases h : ((model [[], []]).map List.dropLast).flatten.length = 0
    · rw [if_pos h]
      have : ((model [[], []]).map List.dropLast).flatten = [] := List.length_eq_zero_iff.mp h
      rw [this]
      simp [meanLoss]
    · rw [if_neg h]
  unfold modelEval
  simp only [List.mapM_cons, List.mapM_nil, hlast]
  cases windowLoss model [a, b] <;> rfl

/-- A model that is sure after three tokens and undecided after two. -/
private noncomputable def unevenModel (w : List ℕ) : List (List ℝ) := if w.length = 2 then [[0, 0], [0, 0]] else [[0], [0], [0]]

/-- Disagreement: for windows of different lengths it is not the perplexity. -/
theorem C133_uneven_windows : ∃ (f : List ℕ → List (List ℝ)) (ws : List (List ℕ)), (∀ w ∈ ws, LogitsFit f w ∧ 2 ≤ w.length) ∧
    ∀ s, 0 < s → modelEval (oneRow f) (ws.map fun w => [w]) s ≠ some (Spec.perplexity (ws.flatMap fun w => Spec.predictions (f w) w)) := by
  refine ⟨unevenModel, [[0, 0], [0, 0, 0]], ?_, ?_⟩
  · intro w hw
    simp only [List.mem_cons, List.not_mem_nil, or_false] at hw
    rcases hw with rfl | rfl
    · exact ⟨⟨rfl, by simp [unevenModel]⟩, by simp⟩
    · exact ⟨⟨rfl, by simp [unevenModel]⟩, by simp⟩
  · intro s hs h
    have w1 : windowLoss (oneRow unevenModel) [[0, 0]] = some (Real.log 2) := by
      simp [windowLoss, oneRow, unevenModel, tokenLoss, meanLoss]
      norm_num
    have w2 : windowLoss (oneRow unevenModel) [[0, 0, 0]] = some 0 := by
      simp [windowLoss, oneRow, unevenModel, tokenLoss, meanLoss]
    have hsr : (s : ℝ) ≠ 0 := by
      have : s ≠ 0 := by omega
      exact_mod_cast this
    have he : modelEval (oneRow unevenModel) [[[0, 0]], [[0, 0, 0]]] s = some (Real.exp (Real.log 2 / 2)) := by
      unfold modelEval
      simp only [List.mapM_cons, List.mapM_nil, w1, w2, Option.map_some]
      simp
      field_simp
    have hp : Spec.perplexity ([[0, 0], [0, 0, 0]].flatMap fun w => Spec.predictions (unevenModel w) w) = Real.exp (Real.log 2 / 3) := by
      have : ([[0, 0], [0, 0, 0]].flatMap fun w => Spec.predictions (unevenModel w) w) = [1 / 2, 1, 1] := by
        simp [Spec.predictions, unevenModel, Spec.probability, List.range_succ]
        norm_num
      rw [this]
      unfold Spec.perplexity
      have h2 : (1 / 2 : ℝ) = Real.exp (-Real.log 2) := by rw [Real.exp_neg, Real.exp_log (by norm_num)]; norm_num
      simp only [List.prod_cons, List.prod_nil, mul_one, List.length_cons, List.length_nil]
      rw [h2, ← Real.exp_mul]
      congr 1
      push_cast
      ring
    rw [List.map_cons, List.map_cons, List.map_nil, he, hp] at h
    have h := Real.exp_injective (Option.some.inj h)
    have : 0 < Real.log 2 := Real.log_pos (by norm_num)
    linarith

/-! ## Examples -/

example : modelEval (oneRow fun w => w.map fun _ => List.replicate 5 0) [[[1, 4, 2]], [[0, 3, 3]]] 3 = some 5 := by
  have := C133_uniform_model 5 3 (by norm_num) [[1, 4, 2], [0, 3, 3]] (by simp) (by
    intro w hw
    simp only [List.mem_cons, List.not_mem_nil, or_false] at hw
    rcases hw with rfl | rfl <;> simp)
  exact_mod_cast this

example : validationData [[1, 4, 2, 0, 3, 3, 7]] 3 = some [[[1, 4, 2]], [[0, 3, 3]]] := by decide

end Brevitas.Props
