import Verif.Spec.LearnedGrad
import Verif.Props.Ste
import Mathlib.Analysis.SpecialFunctions.Pow.Deriv
import Mathlib.Analysis.Calculus.Deriv.Inv

/-!
# C138: gradients of learned scales and bit widths
-/

namespace Brevitas.Props

open Brevitas Brevitas.LearnedGrad

open Brevitas.Spec

/-! ## Helpers -/

private def Tracks (f : ℝ → ℝ) (d : Dual ℝ) : Prop := f 0 = d.val ∧ HasDerivAt f d.der 0

private theorem tracks_const (c : ℝ) : Tracks (fun _ => c) (.const c) := ⟨rfl, hasDerivAt_const 0 c⟩

private theorem Tracks.add {f g : ℝ → ℝ} {a b : Dual ℝ} (hf : Tracks f a) (hg : Tracks g b) : Tracks (fun t => f t + g t) (a.add b) :=
  ⟨by simp only [Dual.add, hf.1, hg.1], hf.2.add hg.2⟩

private theorem Tracks.sub {f g : ℝ → ℝ} {a b : Dual ℝ} (hf : Tracks f a) (hg : Tracks g b) : Tracks (fun t => f t - g t) (a.sub b) :=
  ⟨by simp only [Dual.sub, hf.1, hg.1], hf.2.sub hg.2⟩

private theorem Tracks.neg {f : ℝ → ℝ} {a : Dual ℝ} (hf : Tracks f a) : Tracks (fun t => -f t) a.neg :=
  ⟨by simp only [Dual.neg, hf.1], hf.2.neg⟩

private theorem Tracks.mul {f g : ℝ → ℝ} {a b : Dual ℝ} (hf : Tracks f a) (hg : Tracks g b) : Tracks (fun t => f t * g t) (a.mul b) :=
  ⟨by simp only [Dual.mul, hf.1, hg.1], by
    have := hf.2.mul hg.2
    rw [hf.1, hg.1] at this
    exact this⟩

private theorem Tracks.div {f g : ℝ → ℝ} {a b : Dual ℝ} (hf : Tracks f a) (hg : Tracks g b) (h0 : b.val ≠ 0) : Tracks (fun t => f t / g t) (a.div b) :=
  ⟨by simp only [Dual.div, hf.1, hg.1], by
    have := hf.2.div hg.2 (by rw [hg.1]; exact h0)
    rw [hf.1, hg.1, sq] at this
    exact this⟩

private theorem Tracks.exp2 {f : ℝ → ℝ} {a : Dual ℝ} (hf : Tracks f a) : Tracks (fun t => (2 : ℝ) ^ f t) (exp2 a) :=
  ⟨by simp only [LearnedGrad.exp2, hf.1], by
    have := hf.2.const_rpow (by norm_num : (0 : ℝ) < 2)
    rw [hf.1] at this
    refine this.congr_deriv ?_
    show _ = 2 ^ a.val * Real.log 2 * a.der
    ring⟩

private theorem Tracks.shift {f : ℝ → ℝ} {a : Dual ℝ} (hf : Tracks f a) (c : ℝ) : Tracks (fun t => f t + c) ⟨a.val + c, a.der⟩ :=
  ⟨by simp only [hf.1], hf.2.add_const c⟩

private theorem Tracks.congr {f : ℝ → ℝ} {a b : Dual ℝ} (hf : Tracks f a) (h1 : a.val = b.val) (h2 : a.der = b.der) : Tracks f b :=
  ⟨hf.1.trans h1, hf.2.congr_deriv h2⟩

private theorem Tracks.round {f : ℝ → ℝ} {a : Dual ℝ} (hf : Tracks f a) : Tracks (fun t => f t + (Frozen.round (f 0) - f 0)) (roundSte a) := by
  refine (hf.shift _).congr ?_ rfl
  simp only [roundSte, AutogradFn.dual, SteOp.py, Frozen.round, hf.1]
  ring

private theorem sign_eq (x : ℝ) : binarySign x = Frozen.sign x := by
  unfold binarySign Frozen.sign
  split_ifs <;> norm_num

private theorem sign_mul_self (x : ℝ) : Frozen.sign x * x = |x| := by
  unfold Frozen.sign
  split_ifs with h
  · rw [abs_of_nonneg h, one_mul]
  · rw [abs_of_neg (not_le.mp h)]; ring

private theorem Tracks.abs {f : ℝ → ℝ} {a : Dual ℝ} (hf : Tracks f a) : Tracks (fun t => Frozen.sign (f 0) * f t) (absBinarySignGrad a) := by
  have h := (tracks_const (Frozen.sign (f 0))).mul hf
  refine h.congr ?_ ?_
  · simp only [Dual.mul, Dual.const, absBinarySignGrad, AutogradFn.dual, SteOp.py]
    rw [hf.1, sign_mul_self]
  · simp only [Dual.mul, Dual.const, absBinarySignGrad, AutogradFn.dual, SteOp.py]
    rw [hf.1, sign_eq]
    ring

private theorem clampMin_eq (x m : ℝ) : clampMin x m = max x m := rfl

private theorem Tracks.clampMin {f : ℝ → ℝ} {a : Dual ℝ} (hf : Tracks f a) (m : Option ℝ) : Tracks (fun t => f t + Frozen.lift m (f 0)) (clampMinSte m a) := by
  refine (hf.shift _).congr ?_ ?_
  · cases m with
    | none => simp [Frozen.lift, clampMinSte]
    | some m =>
      by_cases h : m = 0
      · simp [Frozen.lift, clampMinSte, h]
      · simp only [Frozen.lift, clampMinSte, h, if_false, AutogradFn.dual, SteOp.py, hf.1, clampMin_eq]
        ring
  · cases m with
    | none => rfl
    | some m =>
      by_cases h : m = 0
      · simp [clampMinSte, h]
      · simp [clampMinSte, h, AutogradFn.dual, SteOp.py]

private theorem tracks_bits (base : ℝ) {o : ℝ → ℝ} {a : Dual ℝ} (ho : Tracks o a) : Tracks (Frozen.bits base o) (bitWidthParameter base a) := by
  have h := ((ho.abs).add (tracks_const base)).round
  have he : (fun t => Frozen.sign (o 0) * o t + base + (Frozen.round (Frozen.sign (o 0) * o 0 + base) - (Frozen.sign (o 0) * o 0 + base))) = Frozen.bits base o := by
    funext t
    unfold Frozen.bits
    rw [sign_mul_self]
  rw [he] at h
  exact h

private theorem bits_integer (base : ℝ) (o : ℝ → ℝ) : ∃ n : ℤ, Frozen.bits base o 0 = n := by
  refine ⟨torchRound (|o 0| + base), ?_⟩
  unfold Frozen.bits Frozen.round
  rw [sign_mul_self]
  ring

private theorem tracks_top (signed narrow : Bool) {f : ℝ → ℝ} {b : Dual ℝ} (hb : Tracks f b) : Tracks (fun t => Frozen.top signed narrow (f t)) (maxIntOf signed narrow b) := by
  cases signed <;> cases narrow
  · exact hb.exp2.sub (tracks_const 1)
  · exact hb.exp2.sub (tracks_const 2)
  · exact (hb.sub (tracks_const 1)).exp2.sub (tracks_const 1)
  · exact (hb.sub (tracks_const 1)).exp2.sub (tracks_const 1)

private theorem tracks_bottom (signed narrow : Bool) {f : ℝ → ℝ} {b : Dual ℝ} (hb : Tracks f b) : Tracks (fun t => Frozen.bottom signed narrow (f t)) (minIntOf signed narrow b) := by
  cases signed <;> cases narrow
  · have h := (tracks_const 0).mul hb
    simp only [zero_mul] at h
    exact h
  · have h := (tracks_const 0).mul hb
    simp only [zero_mul] at h
    exact h
  · exact (hb.sub (tracks_const 1)).exp2.neg
  · have h := (hb.sub (tracks_const 1)).exp2.neg.add (tracks_const 1)
    have he : (fun t => -(2 : ℝ) ^ (f t - 1) + 1) = fun t => Frozen.bottom true true (f t) := by
      funext t
      simp only [Frozen.bottom, if_true]
      ring
    rw [he] at h
    exact h

private theorem tracks_intScaling (k : Kind) (signed narrow : Bool) {f : ℝ → ℝ} {b : Dual ℝ} (hb : Tracks f b) :
    Tracks (fun t => Frozen.steps k signed narrow (f t)) (intScalingOf k signed narrow b) := by
  have hplain : Tracks (fun t => if signed then -Frozen.bottom signed narrow (f t) else Frozen.top signed narrow (f t)) (if signed then (minIntOf signed narrow b).neg else maxIntOf signed narrow b) := by
    cases signed
    · exact tracks_top false narrow hb
    · exact (tracks_bottom true narrow hb).neg
  cases k with
  | fp => exact hplain
  | logFp => exact hplain
  | powerOfTwo =>
    have h := (tracks_top signed false hb).add (tracks_const 1)
    have he : (fun t => Frozen.top signed false (f t) + 1) = fun t => Frozen.steps .powerOfTwo signed narrow (f t) := by
      funext t
      cases signed <;> simp [Frozen.top, Frozen.steps]
    rw [he] at h
    exact h

private theorem round_int (n : ℤ) : torchRound (n : ℝ) = n := by
  have h := torchRound_err (n : ℝ)
  have h2 : |((torchRound (n : ℝ) - n : ℤ) : ℝ)| < 1 := by
    push_cast
    exact lt_of_le_of_lt h (by norm_num)
  have h3 : |torchRound (n : ℝ) - n| < 1 := by exact_mod_cast h2
  have := Int.abs_lt_one_iff.mp h3
  omega

/-- The restriction does not change the number of steps: a power of two is one in the power-of-two case. -/
private theorem restricted_threshold (k : Kind) (minVal : Option ℝ) (T : Dual ℝ) (hT : 0 < T.val) (hm : ∀ m, minVal = some m → m ≤ T.val)
    (hpow : k = .powerOfTwo → ∃ n : ℤ, T.val = 2 ^ (n : ℝ)) : restrictClamp k minVal (k.init T) = T := by
  have hlog : (0 : ℝ) < Real.log 2 := Real.log_pos (by norm_num)
  have h1 : k.forward (k.init T) = T := by
    have hexp : LearnedGrad.exp2 (log2 T) = T := by
      have hv : (2 : ℝ) ^ Real.logb 2 T.val = T.val := Real.rpow_logb (by norm_num) (by norm_num) hT
      unfold LearnedGrad.exp2 log2
      simp only [hv]
      cases T with
      | mk v d =>
        simp only at hT
        simp only [Dual.mk.injEq, true_and]
        field_simp
    cases k with
    | fp => rfl
    | logFp => exact hexp
    | powerOfTwo =>
      obtain ⟨n, hn⟩ := hpow rfl
      have hr : roundSte (log2 T) = log2 T := by
        have hl : (log2 T).val = n := by
          show Real.logb 2 T.val = n
          rw [hn, Real.logb_rpow (by norm_num) (by norm_num)]
        unfold roundSte AutogradFn.dual
        simp only [SteOp.py]
        rw [hl, round_int, ← hl]
      show LearnedGrad.exp2 (roundSte (log2 T)) = T
      rw [hr, hexp]
  unfold restrictClamp
  rw [h1]
  cases minVal with
  | none => rfl
  | some m =>
    unfold clampMinSte
    by_cases h0 : m = 0
    · simp [h0]
    · simp only [h0, if_false, AutogradFn.dual, SteOp.py, clampMin_eq, max_eq_left (hm m rfl)]

private theorem tracks_value (k : Kind) (minVal : Option ℝ) {v : ℝ → ℝ} {a : Dual ℝ} (hv : Tracks v a) :
    Tracks (Frozen.value k minVal v) (absBinarySignGrad (restrictClamp k minVal a)) := by
  have h1 : Tracks (Frozen.raw k v) (k.forward a) := by
    cases k with
    | fp => exact hv
    | logFp => exact hv.exp2
    | powerOfTwo => exact hv.round.exp2
  exact (h1.clampMin minVal).abs

/-! ## C138 -/

/-- C138: the coefficient that autograd computes, for any joint change of input, learned value and learned offset of the bit width, is the derivative of the quantiser with its
rounding errors, lower bounds, signs and sides of clipping held fixed; and that function starts at what the quantiser returns. -/
theorem C138_gradient (k : Kind) (minVal : Option ℝ) (signed narrow : Bool) (base : ℝ) (o v x : ℝ → ℝ) (do' dv dx : ℝ) (ho : HasDerivAt o do' 0) (hv : HasDerivAt v dv 0)
    (hx : HasDerivAt x dx 0) (hT : 0 < Frozen.steps k signed narrow (Frozen.bits base o 0)) (hm : ∀ m, minVal = some m → m ≤ Frozen.steps k signed narrow (Frozen.bits base o 0))
    (hne : Frozen.value k minVal v 0 ≠ 0) (hrange : Frozen.bottom signed narrow (Frozen.bits base o 0) ≤ Frozen.top signed narrow (Frozen.bits base o 0)) :
    let out := quantise k minVal signed narrow (bitWidthParameter base ⟨o 0, do'⟩) ⟨v 0, dv⟩ ⟨x 0, dx⟩
    Frozen.output k minVal signed narrow base o v x 0 = out.val ∧ HasDerivAt (Frozen.output k minVal signed narrow base o v x) out.der 0 := by
  intro out
  have tb := tracks_bits base (a := ⟨o 0, do'⟩) ⟨rfl, ho⟩
  have ttop := tracks_top signed narrow tb
  have tbot := tracks_bottom signed narrow tb
  have tT := tracks_intScaling k signed narrow tb
  have hpow : k = .powerOfTwo → ∃ n : ℤ, (intScalingOf k signed narrow (bitWidthParameter base ⟨o 0, do'⟩)).val = 2 ^ (n : ℝ) := by
    rintro rfl
    obtain ⟨n, hn⟩ := bits_integer base o
    rw [← tT.1]
    simp only [Frozen.steps, hn]
    cases signed
    · exact ⟨n, rfl⟩
    · exact ⟨n - 1, by push_cast; rfl⟩
  have hTv : (intScalingOf k signed narrow (bitWidthParameter base ⟨o 0, do'⟩)).val = Frozen.steps k signed narrow (Frozen.bits base o 0) := tT.1.symm
  have hrest := restricted_threshold k minVal _ (by rw [hTv]; exact hT) (by rw [hTv]; exact hm) hpow
  have ts : Tracks (Frozen.scale k minVal signed narrow base o v) (parameterScaling k minVal ⟨v 0, dv⟩ (intScalingOf k signed narrow (bitWidthParameter base ⟨o 0, do'⟩))) := by
    unfold parameterScaling
    simp only [hrest]
    exact (tracks_value k minVal (a := ⟨v 0, dv⟩) ⟨rfl, hv⟩).div tT (by rw [hTv]; exact hT.ne')
  have hs0 : Frozen.scale k minVal signed narrow base o v 0 ≠ 0 := div_ne_zero hne hT.ne'
  have tx : Tracks x ⟨x 0, dx⟩ := ⟨rfl, hx⟩
  have ty := ((tx.div ts (by rw [← ts.1]; exact hs0)).add (tracks_const 0)).round
  have tq : ((SteOp.py .round).dual ((Dual.div ⟨x 0, dx⟩ (parameterScaling k minVal ⟨v 0, dv⟩ (intScalingOf k signed narrow (bitWidthParameter base ⟨o 0, do'⟩)))).add (.const 0))).val =
      Frozen.round (x 0 / Frozen.scale k minVal signed narrow base o v 0) := by
    have := ty.1
    simp only [add_zero] at this
    rw [add_sub_cancel] at this
    exact this.symm
  suffices h : Tracks (Frozen.output k minVal signed narrow base o v x) out from h
  show Tracks _ (intQuantDual _ _ _ _ _ _ _)
  unfold intQuantDual Frozen.output
  simp only [Bool.false_eq_true, if_false]
  have hfin : ∀ {f : ℝ → ℝ} {d : Dual ℝ}, Tracks f d → Tracks (fun t => f t * Frozen.scale k minVal signed narrow base o v t) ((d.sub (.const 0)).mul
      (parameterScaling k minVal ⟨v 0, dv⟩ (intScalingOf k signed narrow (bitWidthParameter base ⟨o 0, do'⟩)))) := by
    intro f d hf
    have := (hf.sub (tracks_const 0)).mul ts
    simp only [sub_zero] at this
    exact this
  have hrange' : (minIntOf signed narrow (bitWidthParameter base ⟨o 0, do'⟩)).val ≤ (maxIntOf signed narrow (bitWidthParameter base ⟨o 0, do'⟩)).val := by
    rw [← ttop.1, ← tbot.1]
    exact hrange
  unfold tensorClampDual
  simp only [gt_iff_lt]
  rw [tq, ← ttop.1]
  by_cases h1 : Frozen.top signed narrow (Frozen.bits base o 0) < Frozen.round (x 0 / Frozen.scale k minVal signed narrow base o v 0)
  · simp only [h1, if_true]
    rw [if_neg (not_lt.mpr hrange')]
    exact hfin ttop
  · simp only [h1, if_false]
    rw [tq, ← tbot.1]
    by_cases h2 : Frozen.round (x 0 / Frozen.scale k minVal signed narrow base o v 0) < Frozen.bottom signed narrow (Frozen.bits base o 0)
    · simp only [h2, if_true]
      exact hfin tbot
    · simp only [h2, if_false]
      have := hfin ty
      simp only [add_zero] at this
      exact this

/-- The dual of the scale. -/
private theorem scale_dual (k : Kind) (minVal : Option ℝ) (signed narrow : Bool) (base o do' v dv : ℝ) (hT : 0 < Frozen.steps k signed narrow (Frozen.bits base (fun _ => o) 0))
    (hm : ∀ m, minVal = some m → m ≤ Frozen.steps k signed narrow (Frozen.bits base (fun _ => o) 0)) :
    parameterScaling k minVal ⟨v, dv⟩ (intScalingOf k signed narrow (bitWidthParameter base ⟨o, do'⟩)) =
      (absBinarySignGrad (restrictClamp k minVal ⟨v, dv⟩)).div (intScalingOf k signed narrow (bitWidthParameter base ⟨o, do'⟩)) := by
  have tb := tracks_bits base (o := fun t => o + t * do') (a := ⟨o, do'⟩) ⟨by simp, by simpa using ((hasDerivAt_id (0 : ℝ)).mul_const do').const_add o⟩
  have tT := tracks_intScaling k signed narrow tb
  have hb : Frozen.bits base (fun t => o + t * do') 0 = Frozen.bits base (fun _ => o) 0 := by simp [Frozen.bits]
  have hTv : (intScalingOf k signed narrow (bitWidthParameter base ⟨o, do'⟩)).val = Frozen.steps k signed narrow (Frozen.bits base (fun _ => o) 0) := by
    rw [← hb]
    exact tT.1.symm
  have hpow : k = .powerOfTwo → ∃ n : ℤ, (intScalingOf k signed narrow (bitWidthParameter base ⟨o, do'⟩)).val = 2 ^ (n : ℝ) := by
    rintro rfl
    obtain ⟨n, hn⟩ := bits_integer base (fun _ => o)
    rw [hTv]
    simp only [Frozen.steps, hn]
    cases signed
    · exact ⟨n, rfl⟩
    · exact ⟨n - 1, by push_cast; rfl⟩
  unfold parameterScaling
  simp only [restricted_threshold k minVal _ (by rw [hTv]; exact hT) (by rw [hTv]; exact hm) hpow]

/-- How fast the learned value changes before the lower bound and the magnitude. -/
noncomputable def _root_.Brevitas.Spec.Frozen.slope (k : Kind) (v : ℝ) : ℝ :=
  match k with
  | .fp => 1
  | .logFp => 2 ^ v * Real.log 2
  | .powerOfTwo => 2 ^ Frozen.round v * Real.log 2

private theorem value_der (k : Kind) (minVal : Option ℝ) (v dv : ℝ) : (absBinarySignGrad (restrictClamp k minVal ⟨v, dv⟩)).der =
    Frozen.sign (Frozen.raw k (fun _ => v) 0 + Frozen.lift minVal (Frozen.raw k (fun _ => v) 0)) * (Frozen.slope k v * dv) := by
  have h1 : Tracks (Frozen.raw k fun t => v + t * dv) (k.forward ⟨v, dv⟩) := by
    have hv : Tracks (fun t => v + t * dv) ⟨v, dv⟩ := ⟨by simp, by simpa using ((hasDerivAt_id (0 : ℝ)).mul_const dv).const_add v⟩
    cases k with
    | fp => exact hv
    | logFp => exact hv.exp2
    | powerOfTwo => exact hv.round.exp2
  have h2 := (h1.clampMin minVal).1
  have h3 : Frozen.raw k (fun t => v + t * dv) 0 = Frozen.raw k (fun _ => v) 0 := by cases k <;> simp [Frozen.raw]
  simp only [h3] at h2
  have h4 : (restrictClamp k minVal ⟨v, dv⟩).der = Frozen.slope k v * dv := by
    have hc : ∀ a : Dual ℝ, (clampMinSte minVal a).der = a.der := by
      intro a
      unfold clampMinSte
      cases minVal with
      | none => rfl
      | some m => simp only; split_ifs <;> rfl
    unfold restrictClamp
    rw [hc]
    cases k with
    | fp => show dv = 1 * dv; ring
    | logFp => rfl
    | powerOfTwo => rfl
  show binarySign (restrictClamp k minVal ⟨v, dv⟩).val * (restrictClamp k minVal ⟨v, dv⟩).der = _
  rw [sign_eq, h4]
  unfold restrictClamp
  rw [← h2]

/-- C138, learned scale: the gradient of the learned value is its slope, per step, times the rounding error in steps, or times the end of the range for clipped inputs. -/
theorem C138_learned_scale (k : Kind) (minVal : Option ℝ) (signed narrow : Bool) (base o v x : ℝ) (hT : 0 < Frozen.steps k signed narrow (Frozen.bits base (fun _ => o) 0))
    (hm : ∀ m, minVal = some m → m ≤ Frozen.steps k signed narrow (Frozen.bits base (fun _ => o) 0)) (hne : Frozen.value k minVal (fun _ => v) 0 ≠ 0)
    (hrange : Frozen.bottom signed narrow (Frozen.bits base (fun _ => o) 0) ≤ Frozen.top signed narrow (Frozen.bits base (fun _ => o) 0)) :
    let n := Frozen.bits base (fun _ => o) 0
    let s := Frozen.value k minVal (fun _ => v) 0 / Frozen.steps k signed narrow n
    let q := Frozen.round (x / s)
    (quantise k minVal signed narrow (bitWidthParameter base ⟨o, 0⟩) ⟨v, 1⟩ ⟨x, 0⟩).der =
      Frozen.sign (Frozen.raw k (fun _ => v) 0 + Frozen.lift minVal (Frozen.raw k (fun _ => v) 0)) * Frozen.slope k v / Frozen.steps k signed narrow n *
        (if Frozen.top signed narrow n < q then Frozen.top signed narrow n else if q < Frozen.bottom signed narrow n then Frozen.bottom signed narrow n else q - x / s) := by
  intro n s q
  have tb := tracks_bits base (o := fun _ => o) (a := ⟨o, 0⟩) ⟨rfl, hasDerivAt_const 0 o⟩
  have ttop := tracks_top signed narrow tb
  have tbot := tracks_bottom signed narrow tb
  have tT := tracks_intScaling k signed narrow tb
  have hconst : ∀ t, Frozen.bits base (fun _ => o) t = n := fun t => rfl
  have zero_der : ∀ {f : ℝ → ℝ} {d : Dual ℝ} (c : ℝ), Tracks f d → (∀ t, f t = c) → d = ⟨c, 0⟩ := by
    intro f d c h hc
    have hf : f = fun _ => c := funext hc
    subst hf
    have := h.2.unique (hasDerivAt_const 0 c)
    cases d
    simp only at this
    rw [Dual.mk.injEq]
    exact ⟨h.1.symm, this⟩
  have etop := zero_der (Frozen.top signed narrow n) ttop fun t => rfl
  have ebot := zero_der (Frozen.bottom signed narrow n) tbot fun t => rfl
  have eT := zero_der (Frozen.steps k signed narrow n) tT fun t => rfl
  have hval : (absBinarySignGrad (restrictClamp k minVal ⟨v, 1⟩)).val = Frozen.value k minVal (fun _ => v) 0 := by
    have h := (tracks_value k minVal (v := fun t => v + t * 1) (a := ⟨v, 1⟩) ⟨by simp, by simpa using ((hasDerivAt_id (0 : ℝ)).mul_const 1).const_add v⟩).1
    rw [← h]
    cases k <;> simp [Frozen.value, Frozen.raw]
  have hT' : Frozen.steps k signed narrow n ≠ 0 := hT.ne'
  have es : parameterScaling k minVal ⟨v, 1⟩ (intScalingOf k signed narrow (bitWidthParameter base ⟨o, 0⟩)) =
      ⟨s, Frozen.sign (Frozen.raw k (fun _ => v) 0 + Frozen.lift minVal (Frozen.raw k (fun _ => v) 0)) * Frozen.slope k v / Frozen.steps k signed narrow n⟩ := by
    rw [scale_dual k minVal signed narrow base o 0 v 1 hT hm, eT]
    unfold Dual.div
    rw [hval, value_der]
    simp only [Dual.mk.injEq]
    refine ⟨rfl, ?_⟩
    field_simp
    ring
  have hs : s ≠ 0 := div_ne_zero hne hT'
  unfold quantise
  simp only
  rw [es, etop, ebot]
  have hround : (SteOp.py (.round : SteOp ℝ)).forward (x / s + 0) = q := by rw [add_zero]; rfl
  by_cases h1 : Frozen.top signed narrow n < q
  · rw [if_pos h1]
    have := C52_quantizer_gradient_above (.round : SteOp ℝ) ⟨Frozen.bottom signed narrow n, 0⟩ ⟨Frozen.top signed narrow n, 0⟩ s
      (Frozen.sign (Frozen.raw k (fun _ => v) 0 + Frozen.lift minVal (Frozen.raw k (fun _ => v) 0)) * Frozen.slope k v / Frozen.steps k signed narrow n) 0 0 x 0 hrange (by rw [hround]; exact h1)
    show (intQuantDual _ _ _ _ _ ⟨0, 0⟩ _).der = _
    rw [this]
    simp only
    ring
  · rw [if_neg h1]
    by_cases h2 : q < Frozen.bottom signed narrow n
    · rw [if_pos h2]
      have := C52_quantizer_gradient_below (.round : SteOp ℝ) ⟨Frozen.bottom signed narrow n, 0⟩ ⟨Frozen.top signed narrow n, 0⟩ s
        (Frozen.sign (Frozen.raw k (fun _ => v) 0 + Frozen.lift minVal (Frozen.raw k (fun _ => v) 0)) * Frozen.slope k v / Frozen.steps k signed narrow n) 0 0 x 0 hrange (by rw [hround]; exact h2)
      show (intQuantDual _ _ _ _ _ ⟨0, 0⟩ _).der = _
      rw [this]
      simp only
      ring
    · rw [if_neg h2]
      have := C52_quantizer_gradient_inside (.round : SteOp ℝ) (.inl rfl) ⟨Frozen.bottom signed narrow n, 0⟩ ⟨Frozen.top signed narrow n, 0⟩ s
        (Frozen.sign (Frozen.raw k (fun _ => v) 0 + Frozen.lift minVal (Frozen.raw k (fun _ => v) 0)) * Frozen.slope k v / Frozen.steps k signed narrow n) 0 0 x 0 hs
        (by rw [hround]; exact not_lt.mp h2) (by rw [hround]; exact not_lt.mp h1)
      show (intQuantDual _ _ _ _ _ ⟨0, 0⟩ _).der = _
      rw [this]
      simp only
      rw [hround]
      ring

/-- C138, learned bit width (signed, full range): an input that is clipped at the top pulls the bit width with the scale, one that is clipped at the bottom not at all (the bottom is
minus the learned value), and any other with its rounding error, all times the logarithm of 2. -/
theorem C138_learned_bits (k : Kind) (minVal : Option ℝ) (base o v x : ℝ) (hm : ∀ m, minVal = some m → m ≤ 2 ^ (Frozen.bits base (fun _ => o) 0 - 1))
    (hne : Frozen.value k minVal (fun _ => v) 0 ≠ 0) (hn : 1 ≤ Frozen.bits base (fun _ => o) 0) :
    let n := Frozen.bits base (fun _ => o) 0
    let s := Frozen.value k minVal (fun _ => v) 0 / 2 ^ (n - 1)
    let q := Frozen.round (x / s)
    (quantise k minVal true false (bitWidthParameter base ⟨o, 1⟩) ⟨v, 0⟩ ⟨x, 0⟩).der =
      Frozen.sign o * Real.log 2 * (if (2 : ℝ) ^ (n - 1) - 1 < q then s else if q < -2 ^ (n - 1) then 0 else x - q * s) := by
  intro n s q
  have hb : bitWidthParameter base ⟨o, 1⟩ = ⟨n, Frozen.sign o⟩ := by
    have h := (tracks_bits base (o := fun t => o + t * 1) (a := ⟨o, 1⟩) ⟨by simp, by simpa using ((hasDerivAt_id (0 : ℝ)).mul_const 1).const_add o⟩).1
    have h2 : Frozen.bits base (fun t => o + t * 1) 0 = n := by simp [n, Frozen.bits]
    rw [h2] at h
    have h3 : (bitWidthParameter base ⟨o, 1⟩).der = Frozen.sign o := by
      show binarySign o * 1 + 0 = _
      rw [sign_eq]
      ring
    rw [h, ← h3]
  have hTpos : (0 : ℝ) < 2 ^ (n - 1) := Real.rpow_pos_of_pos (by norm_num) _
  have hsteps : Frozen.steps k true false n = 2 ^ (n - 1) := by cases k <;> simp [Frozen.steps, Frozen.bottom]
  have hexp : LearnedGrad.exp2 (Dual.sub ⟨n, Frozen.sign o⟩ (.const 1)) = ⟨2 ^ (n - 1), 2 ^ (n - 1) * Real.log 2 * Frozen.sign o⟩ := by
    simp [LearnedGrad.exp2, Dual.sub, Dual.const]
  have emn : minIntOf true false ⟨n, Frozen.sign o⟩ = ⟨-2 ^ (n - 1), -(2 ^ (n - 1) * Real.log 2 * Frozen.sign o)⟩ := by
    show (LearnedGrad.exp2 _).neg = _
    rw [hexp]
    rfl
  have emx : ∀ narrow, maxIntOf true narrow ⟨n, Frozen.sign o⟩ = ⟨2 ^ (n - 1) - 1, 2 ^ (n - 1) * Real.log 2 * Frozen.sign o⟩ := by
    intro narrow
    have : maxIntOf true narrow ⟨n, Frozen.sign o⟩ = (LearnedGrad.exp2 (Dual.sub ⟨n, Frozen.sign o⟩ (.const 1))).sub (.const 1) := by cases narrow <;> rfl
    rw [this, hexp]
    simp [Dual.sub, Dual.const]
  have eT : intScalingOf k true false ⟨n, Frozen.sign o⟩ = ⟨2 ^ (n - 1), 2 ^ (n - 1) * Real.log 2 * Frozen.sign o⟩ := by
    have hplain : (minIntOf true false ⟨n, Frozen.sign o⟩).neg = ⟨2 ^ (n - 1), 2 ^ (n - 1) * Real.log 2 * Frozen.sign o⟩ := by
      rw [emn]
      simp [Dual.neg]
    cases k with
    | fp => exact hplain
    | logFp => exact hplain
    | powerOfTwo =>
      show (maxIntOf true false ⟨n, Frozen.sign o⟩).add (.const 1) = _
      rw [emx]
      simp [Dual.add, Dual.const]
  have hval : (absBinarySignGrad (restrictClamp k minVal ⟨v, 0⟩)).val = Frozen.value k minVal (fun _ => v) 0 :=
    (tracks_value k minVal (v := fun _ => v) (a := ⟨v, 0⟩) ⟨rfl, hasDerivAt_const 0 v⟩).1.symm
  have es : parameterScaling k minVal ⟨v, 0⟩ (intScalingOf k true false ⟨n, Frozen.sign o⟩) = ⟨s, -s * (Real.log 2 * Frozen.sign o)⟩ := by
    have h := scale_dual k minVal true false base o 1 v 0 (by show 0 < Frozen.steps k true false n; rw [hsteps]; exact hTpos)
      (by show ∀ m, minVal = some m → m ≤ Frozen.steps k true false n; rw [hsteps]; exact hm)
    rw [hb, eT] at h
    rw [eT, h]
    unfold Dual.div
    rw [hval, value_der]
    simp only [Dual.mk.injEq]
    refine ⟨rfl, ?_⟩
    simp only [s]
    field_simp
    ring
  have hs : s ≠ 0 := div_ne_zero hne hTpos.ne'
  have hT1 : (1 : ℝ) ≤ 2 ^ (n - 1) := Real.one_le_rpow (by norm_num) (by linarith)
  have hrange : -(2 : ℝ) ^ (n - 1) ≤ 2 ^ (n - 1) - 1 := by linarith
  unfold quantise
  simp only
  rw [hb, es, emn, emx]
  have hround : (SteOp.py (.round : SteOp ℝ)).forward (x / s + 0) = q := by rw [add_zero]; rfl
  by_cases h1 : (2 : ℝ) ^ (n - 1) - 1 < q
  · rw [if_pos h1]
    have := C52_quantizer_gradient_above (.round : SteOp ℝ) ⟨-2 ^ (n - 1), -(2 ^ (n - 1) * Real.log 2 * Frozen.sign o)⟩ ⟨2 ^ (n - 1) - 1, 2 ^ (n - 1) * Real.log 2 * Frozen.sign o⟩ s
      (-s * (Real.log 2 * Frozen.sign o)) 0 0 x 0 hrange (by rw [hround]; exact h1)
    show (intQuantDual _ _ _ _ _ ⟨0, 0⟩ _).der = _
    rw [this]
    simp only
    ring
  · rw [if_neg h1]
    by_cases h2 : q < -2 ^ (n - 1)
    · rw [if_pos h2]
      have := C52_quantizer_gradient_below (.round : SteOp ℝ) ⟨-2 ^ (n - 1), -(2 ^ (n - 1) * Real.log 2 * Frozen.sign o)⟩ ⟨2 ^ (n - 1) - 1, 2 ^ (n - 1) * Real.log 2 * Frozen.sign o⟩ s
        (-s * (Real.log 2 * Frozen.sign o)) 0 0 x 0 hrange (by rw [hround]; exact h2)
      show (intQuantDual _ _ _ _ _ ⟨0, 0⟩ _).der = _
      rw [this]
      simp only
      ring
    · rw [if_neg h2]
      have := C52_quantizer_gradient_inside (.round : SteOp ℝ) (.inl rfl) ⟨-2 ^ (n - 1), -(2 ^ (n - 1) * Real.log 2 * Frozen.sign o)⟩ ⟨2 ^ (n - 1) - 1, 2 ^ (n - 1) * Real.log 2 * Frozen.sign o⟩ s
        (-s * (Real.log 2 * Frozen.sign o)) 0 0 x 0 hs (by rw [hround]; exact not_lt.mp h2) (by rw [hround]; exact not_lt.mp h1)
      show (intQuantDual _ _ _ _ _ ⟨0, 0⟩ _).der = _
      rw [this]
      simp only
      rw [hround]
      field_simp
      ring

/-- C138, a whole tensor: when nothing is clipped, the gradient of a learned scale (not restricted, positive) is the sum over the elements of the gradient of the output times the
rounding error in steps, per step. -/
theorem C138_tensor (signed narrow : Bool) (base o v : ℝ) (hv : 0 < v) (hT : 0 < Frozen.steps .fp signed narrow (Frozen.bits base (fun _ => o) 0)) (xgs : List (ℝ × ℝ))
    (hrange : Frozen.bottom signed narrow (Frozen.bits base (fun _ => o) 0) ≤ Frozen.top signed narrow (Frozen.bits base (fun _ => o) 0))
    (hin : ∀ xg ∈ xgs, Frozen.bottom signed narrow (Frozen.bits base (fun _ => o) 0) ≤ Frozen.round (xg.1 / (v / Frozen.steps .fp signed narrow (Frozen.bits base (fun _ => o) 0))) ∧
      Frozen.round (xg.1 / (v / Frozen.steps .fp signed narrow (Frozen.bits base (fun _ => o) 0))) ≤ Frozen.top signed narrow (Frozen.bits base (fun _ => o) 0)) :
    let T := Frozen.steps .fp signed narrow (Frozen.bits base (fun _ => o) 0)
    parameterGrad (fun x => (quantise .fp none signed narrow (bitWidthParameter base ⟨o, 0⟩) ⟨v, 1⟩ ⟨x, 0⟩).der) xgs =
      (xgs.map fun xg => xg.2 * (Frozen.round (xg.1 / (v / T)) - xg.1 / (v / T))).sum / T := by
  intro T
  have hval : Frozen.value .fp none (fun _ => v) 0 = v := by simp [Frozen.value, Frozen.raw, Frozen.lift, Frozen.sign, hv.le]
  unfold parameterGrad
  rw [div_eq_mul_inv, ← List.sum_map_mul_right]
  refine congrArg List.sum (List.map_congr_left fun xg hxg => ?_)
  have h := C138_learned_scale .fp none signed narrow base o v xg.1 hT (by simp) (by rw [hval]; exact hv.ne') hrange
  simp only [hval] at h
  obtain ⟨h1, h2⟩ := hin xg hxg
  rw [if_neg (not_lt.mpr h2), if_neg (not_lt.mpr h1)] at h
  simp only [h]
  have hsgn : Frozen.sign (Frozen.raw .fp (fun _ => v) 0 + Frozen.lift none (Frozen.raw .fp (fun _ => v) 0)) = 1 := by simp [Frozen.raw, Frozen.lift, Frozen.sign, hv.le]
  rw [hsgn]
  simp only [Frozen.slope, T]
  ring

/-! ## Examples -/

private theorem round_two : Frozen.round 2 = 2 := by
  have := round_int 2
  unfold Frozen.round
  exact_mod_cast this

private theorem bits_example : Frozen.bits 2 (fun _ => (0 : ℝ)) 0 = 2 := by
  simp [Frozen.bits, round_two]

/-- Two bits, a learned value of 2: one step is 1. The input 1/4 rounds to 0, and the gradient is -1/4 per 2 steps; the input 5 is clipped at 1. -/
example : (quantise .fp none true false (bitWidthParameter 2 ⟨0, 0⟩) ⟨2, 1⟩ ⟨5, 0⟩).der = 1 / 2 := by
  have h := C138_learned_scale .fp none true false 2 0 2 5 (by rw [bits_example]; norm_num [Frozen.steps, Frozen.bottom]) (by simp)
    (by simp [Frozen.value, Frozen.raw, Frozen.lift, Frozen.sign]) (by rw [bits_example]; norm_num [Frozen.top, Frozen.bottom])
  have h5 : Frozen.round 5 = 5 := by
    have := round_int 5
    unfold Frozen.round
    exact_mod_cast this
  simp only [bits_example] at h
  rw [h]
  norm_num [Frozen.steps, Frozen.bottom, Frozen.top, Frozen.value, Frozen.raw, Frozen.lift, Frozen.sign, Frozen.slope, h5]

example : (quantise .fp none true false (bitWidthParameter 2 ⟨0, 1⟩) ⟨2, 0⟩ ⟨5, 0⟩).der = Real.log 2 := by
  have h := C138_learned_bits .fp none 2 0 2 5 (by simp) (by simp [Frozen.value, Frozen.raw, Frozen.lift, Frozen.sign]) (by rw [bits_example]; norm_num)
  have h5 : Frozen.round 5 = 5 := by
    have := round_int 5
    unfold Frozen.round
    exact_mod_cast this
  simp only [bits_example] at h
  rw [h]
  norm_num [Frozen.value, Frozen.raw, Frozen.lift, Frozen.sign, h5]

end Brevitas.Props
