import Verif.Lemmas.Runtime
import Verif.Props.Scaling

/-!
# C14 - C19, C60: delays, calibration state machines, checkpoints, learned bit widths
-/

set_option linter.unusedSectionVars false

namespace Brevitas.Props

open Brevitas

/-! ## C14 -/

/-- C14: for any sequence of forward calls the first `n` outputs are the unquantised inputs and all later outputs are the
quantised values (`n ≤ 0`: all quantised). -/
theorem C14_delay_counts {α : Type*} (n : ℤ) (calls : List (α × α)) :
    delayRun (delayInit (some n)) calls =
      (calls.take n.toNat).map Prod.fst ++ (calls.drop n.toNat).map Prod.snd := by
  have hnone : ∀ l : List (α × α), delayRun none l = l.map Prod.snd := by
    intro l
    induction l with
    | nil => rfl
    | cons a t ih => obtain ⟨x, y⟩ := a; simp [delayRun, delayStep, ih]
  have hsome : ∀ (l : List (α × α)) (k : ℕ), delayRun (some (k : ℤ)) l =
      (l.take k).map Prod.fst ++ (l.drop k).map Prod.snd := by
    intro l
    induction l with
    | nil => intro k; simp [delayRun]
    | cons a t ih =>
      intro k
      obtain ⟨x, y⟩ := a
      cases k with
      | zero =>
        have := ih 0
        simp only [delayRun, delayStep, Nat.cast_zero, gt_iff_lt, lt_irrefl, if_false] at this ⊢
        simp at this
        simp [this]
      | succ k =>
        have h1 : ((k + 1 : ℕ) : ℤ) > 0 := by positivity
        have h2 : ((k + 1 : ℕ) : ℤ) - 1 = (k : ℤ) := by push_cast; ring
        simp only [delayRun, delayStep, if_pos h1, h2, ih k]
        simp
  simp only [delayInit]
  split_ifs with h
  · rw [hnone, Int.toNat_of_nonpos h]; simp
  · have : (n : ℤ) = ((n.toNat : ℕ) : ℤ) := by omega
    have h2 := hsome calls n.toNat
    rwa [← this] at h2

/-- C14: without a delay every call is quantised. -/
theorem C14_no_delay {α : Type*} (calls : List (α × α)) : delayRun (delayInit none) calls = calls.map Prod.snd := by
  have : ∀ l : List (α × α), delayRun none l = l.map Prod.snd := by
    intro l
    induction l with
    | nil => rfl
    | cons a t ih => obtain ⟨x, y⟩ := a; simp [delayRun, delayStep, ih]
  exact this calls

example : delayRun (delayInit (some 2)) [(10, 1), (20, 2), (30, 3), (40, 4)] = [10, 20, 3, 4] := by decide

/-! ## C15 -/

/-- The raw statistics seen by the calibration: those of the training-mode calls. -/
def observed : List RtsEvent → List ℝ
  | [] => []
  | .call true _ s _ :: h => s :: observed h
  | _ :: h => observed h

theorem observed_append (h1 h2 : List RtsEvent) : observed (h1 ++ h2) = observed h1 ++ observed h2 := by
  induction h1 with
  | nil => rfl
  | cons e t ih =>
    cases e with
    | write v => simpa [observed] using ih
    | call tr ll s th => cases tr <;> simp [observed, ih]

/-- A history made of forward calls outside local-loss mode (no optimiser writes). -/
def PlainCalls (h : List RtsEvent) : Prop := ∀ e ∈ h, ∃ tr s th, e = .call tr false s th

/-- The invariant behind C15. -/
theorem rts_invariant (c : RtsCfg) (hk : 0 < c.collectStatsSteps) (h : List RtsEvent) (hp : PlainCalls h) :
    ((observed h).length ≤ c.collectStatsSteps →
      (rtsRun c .init h).counter = (observed h).length ∧ (rtsRun c .init h).value = ((1 : ℝ) : Raw) ∧
      (rtsRun c .init h).buffer = (((if observed h = [] then 1 else
        Spec.average c.momentum ((observed h).map (clampMinVal c.scalingMinVal))) : ℝ) : Raw)) ∧
    (c.collectStatsSteps < (observed h).length →
      (rtsRun c .init h).counter = c.collectStatsSteps + 1 ∧
      (rtsRun c .init h).value = c.restrict.init (Spec.average c.momentum
        (((observed h).take c.collectStatsSteps).map (clampMinVal c.scalingMinVal)))) := by
  induction h using List.reverseRecOn with
  | nil => simp [rtsRun, observed, RtsState.init]
  | append_singleton h e ih =>
    have ih := ih fun e' he' => hp e' (List.mem_append_left _ he')
    obtain ⟨tr, s, th, rfl⟩ := hp e (by simp)
    have hrun : rtsRun c .init (h ++ [.call tr false s th]) = (rtsStep c (rtsRun c .init h) (.call tr false s th)).1 := by
      simp [rtsRun, List.foldl_append]
    rw [hrun, observed_append]
    cases tr with
    | false => simpa [observed, rtsStep] using ih
    | true =>
      have hobs : observed [RtsEvent.call true false s th] = [s] := rfl
      rw [hobs]
      simp only [List.length_append, List.length_singleton, rtsStep, if_true]
      set st := rtsRun c .init h with hst
      set obs := observed h with hobs'
      rcases lt_trichotomy obs.length c.collectStatsSteps with hlt | heq | hgt
      · -- still collecting
        obtain ⟨h1, h2, h3⟩ := ih.1 hlt.le
        refine ⟨fun _ => ?_, fun hc => absurd hc (by omega)⟩
        have hc1 : st.counter < c.collectStatsSteps := by omega
        simp only [rtsTrain, if_pos hc1, Bool.false_eq_true, if_false]
        refine ⟨by omega, h2, ?_⟩
        rw [if_neg (by simp : ¬ obs ++ [s] = [])]
        by_cases hz : st.counter = 0
        · have hnil : obs = [] := by
            apply List.length_eq_zero_iff.mp; omega
          rw [if_pos hz, h3, hnil]
          simp [average_singleton]
        · have hnil : obs ≠ [] := by
            intro hh; rw [hh] at h1; simp at h1; exact hz h1
          rw [if_neg hz, h3, if_neg hnil, WithBot.map_coe]
          congr 1
          have := momentumUpdate_average c.momentum (obs.map (clampMinVal c.scalingMinVal)) (by simpa using hnil)
            (clampMinVal c.scalingMinVal s)
          rw [List.length_map] at this
          rw [h1, this]
          simp
      · -- transfer
        obtain ⟨h1, h2, h3⟩ := ih.1 heq.le
        refine ⟨fun hc => absurd hc (by omega), fun _ => ?_⟩
        have hc1 : ¬ st.counter < c.collectStatsSteps := by omega
        have hc2 : st.counter = c.collectStatsSteps := by omega
        have hnil : obs ≠ [] := by
          intro hh; rw [hh] at heq; simp at heq; omega
        simp only [rtsTrain, if_neg hc1, if_pos hc2]
        refine ⟨by omega, ?_⟩
        rw [h2, rawMul_one, h3, if_neg hnil]
        have : List.take c.collectStatsSteps (obs ++ [s]) = obs := by
          rw [← heq]; simp
        rw [this]; rfl
      · -- calibrated
        obtain ⟨h1, h2⟩ := ih.2 hgt
        refine ⟨fun hc => absurd hc (by omega), fun _ => ?_⟩
        have hc1 : ¬ st.counter < c.collectStatsSteps := by omega
        have hc2 : ¬ st.counter = c.collectStatsSteps := by omega
        simp only [rtsTrain, if_neg hc1, if_neg hc2]
        refine ⟨h1, ?_⟩
        rw [h2, List.take_append_of_le_length (by omega)]

/-- C15: after any history with `1 ≤ n ≤ collect_stats_steps` training calls (eval calls anywhere), the module has
counted exactly `n` and its buffer holds the average of the clamped statistics of these calls: the true mean when the
momentum is `None`, the exponential moving average otherwise. -/
theorem C15_buffer_is_average (c : RtsCfg) (hk : 0 < c.collectStatsSteps) (h : List RtsEvent) (hp : PlainCalls h)
    (h1 : observed h ≠ []) (h2 : (observed h).length ≤ c.collectStatsSteps) :
    (rtsRun c .init h).counter = (observed h).length ∧
    (rtsRun c .init h).buffer =
      ((Spec.average c.momentum ((observed h).map (clampMinVal c.scalingMinVal)) : ℝ) : Raw) := by
  obtain ⟨a, -, b⟩ := (rts_invariant c hk h hp).1 h2
  exact ⟨a, by rw [b, if_neg h1]⟩

/-- C15: while fewer than `collect_stats_steps` training calls have been made, a training call returns the clamped
statistic of its own batch divided by the threshold. -/
theorem C15_collecting_scale (c : RtsCfg) (hk : 0 < c.collectStatsSteps) (h : List RtsEvent) (hp : PlainCalls h)
    (h2 : (observed h).length < c.collectStatsSteps) (stats threshold : ℝ) :
    (rtsStep c (rtsRun c .init h) (.call true false stats threshold)).2 =
      some |clampMinVal c.scalingMinVal stats / threshold| := by
  obtain ⟨a, -, -⟩ := (rts_invariant c hk h hp).1 h2.le
  have : (rtsRun c .init h).counter < c.collectStatsSteps := by omega
  simp [rtsStep, rtsTrain, this]

/-- C15: after more than `collect_stats_steps` training calls the learned value is the (restricted) average of exactly
the first `collect_stats_steps` training statistics. -/
theorem C15_value_from_first_steps (c : RtsCfg) (hk : 0 < c.collectStatsSteps) (h : List RtsEvent) (hp : PlainCalls h)
    (h2 : c.collectStatsSteps < (observed h).length) :
    (rtsRun c .init h).value = c.restrict.init (Spec.average c.momentum
      (((observed h).take c.collectStatsSteps).map (clampMinVal c.scalingMinVal))) :=
  ((rts_invariant c hk h hp).2 h2).2

/-- C15: once the calibration has ended, statistics are never read again: the state does not change and the scale
depends only on the learned value and the threshold, in training and in eval mode, also after optimiser writes. -/
theorem C15_statistics_never_read_again (c : RtsCfg) (st : RtsState) (hst : c.collectStatsSteps < st.counter)
    (training localLoss : Bool) (stats stats' threshold : ℝ) :
    rtsStep c st (.call training localLoss stats threshold) = rtsStep c st (.call training localLoss stats' threshold) ∧
    (rtsStep c st (.call training localLoss stats threshold)).1 = st := by
  have h1 : ¬ st.counter < c.collectStatsSteps := by omega
  have h2 : ¬ st.counter = c.collectStatsSteps := by omega
  cases training <;> simp [rtsStep, rtsTrain, h1, h2]

/-- C15: and that situation is permanent, whatever the further history of calls and optimiser writes. -/
theorem C15_calibrated_forever (c : RtsCfg) (h : List RtsEvent) (st : RtsState)
    (hst : st.counter = c.collectStatsSteps + 1) : (rtsRun c st h).counter = c.collectStatsSteps + 1 := by
  induction h generalizing st with
  | nil => exact hst
  | cons e t ih =>
    apply ih
    cases e with
    | write v => exact hst
    | call tr ll s th =>
      have h1 : ¬ st.counter < c.collectStatsSteps := by omega
      have h2 : ¬ st.counter = c.collectStatsSteps := by omega
      cases tr
      · simp [rtsStep, hst]
      · simp only [rtsStep, if_true, rtsTrain, if_neg h1, if_neg h2]; exact hst

example : PlainCalls [.call true false 2 1, .call false false 9 1, .call true false 4 1, .call true false 7 1] ∧
    observed [.call true false 2 1, .call false false 9 1, .call true false 4 1, .call true false 7 1] = [2, 4, 7] ∧
    (rtsRun ⟨2, none, .fp, none⟩ .init
      [.call true false 2 1, .call false false 9 1, .call true false 4 1, .call true false 7 1]).value =
      ((3 : ℝ) : Raw) := by
  have hp : PlainCalls [.call true false 2 1, .call false false 9 1, .call true false 4 1, .call true false 7 1] := by
    intro e he
    simp only [List.mem_cons, List.not_mem_nil, or_false] at he
    rcases he with rfl | rfl | rfl | rfl <;> exact ⟨_, _, _, rfl⟩
  refine ⟨hp, rfl, ?_⟩
  rw [C15_value_from_first_steps ⟨2, none, .fp, none⟩ (by norm_num) _ hp (by simp [observed])]
  simp [observed, Restrict.init, Spec.average, Spec.mean, clampMinVal]
  norm_num

/-- The statistics of the training-mode calls of the zero-point module. -/
def zpObserved (h : List (Bool × Bool × ℝ)) : List ℝ := (h.filter fun e => e.1).map fun e => e.2.2

/-- C15, zero points: after any history outside local-loss mode, the buffer is the average of the training statistics while
collecting, and the learned value is the average of exactly the first `collect_stats_steps` of them afterwards. -/
theorem C15_zero_point (c : RtzCfg) (hk : 0 < c.collectStatsSteps) (h : List (Bool × Bool × ℝ))
    (hp : ∀ e ∈ h, e.2.1 = false) (h1 : zpObserved h ≠ []) :
    ((zpObserved h).length ≤ c.collectStatsSteps →
      (rtzRun c .init h).counter = (zpObserved h).length ∧
      (rtzRun c .init h).buffer = Spec.average c.momentum (zpObserved h)) ∧
    (c.collectStatsSteps < (zpObserved h).length →
      (rtzRun c .init h).counter = c.collectStatsSteps + 1 ∧
      (rtzRun c .init h).value = Spec.average c.momentum ((zpObserved h).take c.collectStatsSteps)) := by
  have key : ∀ h : List (Bool × Bool × ℝ), (∀ e ∈ h, e.2.1 = false) →
      ((zpObserved h).length ≤ c.collectStatsSteps →
        (rtzRun c .init h).counter = (zpObserved h).length ∧ (rtzRun c .init h).value = 0 ∧
        (rtzRun c .init h).buffer = if zpObserved h = [] then 0 else Spec.average c.momentum (zpObserved h)) ∧
      (c.collectStatsSteps < (zpObserved h).length →
        (rtzRun c .init h).counter = c.collectStatsSteps + 1 ∧
        (rtzRun c .init h).value = Spec.average c.momentum ((zpObserved h).take c.collectStatsSteps)) := by
    intro h
    induction h using List.reverseRecOn with
    | nil => intro _; simp [rtzRun, zpObserved, RtzState.init]
    | append_singleton h e ih =>
      intro hp
      have ih := ih fun e' he' => hp e' (List.mem_append_left _ he')
      obtain ⟨tr, ll, s⟩ := e
      have hll : ll = false := hp (tr, ll, s) (by simp)
      subst hll
      have hrun : rtzRun c .init (h ++ [(tr, false, s)]) = (rtzStep c (rtzRun c .init h) tr false s 1 0).1 := by
        simp [rtzRun, List.foldl_append]
      rw [hrun]
      cases tr with
      | false =>
        have ht : zpObserved (h ++ [(false, false, s)]) = zpObserved h := by simp [zpObserved, List.filter_append]
        have hs : (rtzStep c (rtzRun c .init h) false false s 1 0).1 = rtzRun c .init h := by
          simp only [rtzStep, Bool.false_eq_true, if_false]; split_ifs <;> rfl
        rw [ht, hs]; exact ih
      | true =>
        have ht : zpObserved (h ++ [(true, false, s)]) = zpObserved h ++ [s] := by simp [zpObserved, List.filter_append]
        rw [ht]
        simp only [List.length_append, List.length_singleton, rtzStep, if_true]
        set st := rtzRun c .init h with hst
        set obs := zpObserved h with hobs'
        rcases lt_trichotomy obs.length c.collectStatsSteps with hlt | heq | hgt
        · obtain ⟨h1, h2, h3⟩ := ih.1 hlt.le
          refine ⟨fun _ => ?_, fun hc => absurd hc (by omega)⟩
          have hc1 : st.counter < c.collectStatsSteps := by omega
          simp only [rtzTrain, if_pos hc1, Bool.false_eq_true, if_false]
          refine ⟨by omega, h2, ?_⟩
          rw [if_neg (by simp : ¬ obs ++ [s] = [])]
          by_cases hz : st.counter = 0
          · have hnil : obs = [] := by apply List.length_eq_zero_iff.mp; omega
            rw [if_pos hz, h3, hnil]
            simp [average_singleton]
          · have hnil : obs ≠ [] := by
              intro hh; rw [hh] at h1; simp at h1; exact hz h1
            rw [if_neg hz, h3, if_neg hnil, h1, momentumUpdate_average c.momentum obs hnil s]
        · obtain ⟨h1, h2, h3⟩ := ih.1 heq.le
          refine ⟨fun hc => absurd hc (by omega), fun _ => ?_⟩
          have hc1 : ¬ st.counter < c.collectStatsSteps := by omega
          have hc2 : st.counter = c.collectStatsSteps := by omega
          have hnil : obs ≠ [] := by
            intro hh; rw [hh] at heq; simp at heq; omega
          simp only [rtzTrain, if_neg hc1, if_pos hc2]
          refine ⟨by omega, ?_⟩
          have : List.take c.collectStatsSteps (obs ++ [s]) = obs := by rw [← heq]; simp
          rw [h2, h3, if_neg hnil, this, zero_add]
        · obtain ⟨h1, h2⟩ := ih.2 hgt
          refine ⟨fun hc => absurd hc (by omega), fun _ => ?_⟩
          have hc1 : ¬ st.counter < c.collectStatsSteps := by omega
          have hc2 : ¬ st.counter = c.collectStatsSteps := by omega
          simp only [rtzTrain, if_neg hc1, if_neg hc2]
          refine ⟨h1, ?_⟩
          rw [h2, List.take_append_of_le_length (by omega)]
  obtain ⟨k1, k2⟩ := key h hp
  refine ⟨fun hl => ?_, k2⟩
  obtain ⟨a, -, b⟩ := k1 hl
  exact ⟨a, by rw [b, if_neg h1]⟩

example : zpObserved [(true, false, 2), (false, false, 5), (true, false, 4)] = [2, 4] := by simp [zpObserved]

/-! ## C16 -/

/-- C16: a call in eval mode does not change the state. -/
theorem C16_eval_keeps_state (c : RtsCfg) (st : RtsState) (localLoss : Bool) (stats threshold : ℝ) :
    (rtsStep c st (.call false localLoss stats threshold)).1 = st := rfl

/-- C16: eval calls interleaved anywhere do not influence the calibration: the final state is that of the history without
them. -/
theorem C16_eval_calls_irrelevant (c : RtsCfg) (st : RtsState) (h : List RtsEvent) :
    rtsRun c st h = rtsRun c st (h.filter fun e => match e with | .call false _ _ _ => false | _ => true) := by
  induction h generalizing st with
  | nil => rfl
  | cons e t ih =>
    cases e with
    | write v => simpa [rtsRun] using ih _
    | call tr ll s th =>
      cases tr with
      | false =>
        have : rtsRun c st (.call false ll s th :: t) = rtsRun c st t := rfl
        rw [this, ih]; rfl
      | true => simpa [rtsRun] using ih _

/-- C16 for local-loss mode: calls in local-loss mode do not change the state, except for one training-mode call that
falls exactly on the transition from collection to learning. Missing: that call, for which the claim is false
(`C16_local_loss_transition_changes_state`). -/
theorem C16_local_loss_partial (c : RtsCfg) (st : RtsState) (hst : st.counter ≠ c.collectStatsSteps)
    (training : Bool) (stats threshold : ℝ) :
    (rtsStep c st (.call training true stats threshold)).1 = st := by
  cases training
  · rfl
  · simp only [rtsStep, if_true, rtsTrain, if_neg hst]
    split_ifs <;> rfl

/-- C16 fails at the transition: a training-mode call under local-loss mode finalises the calibration. -/
theorem C16_local_loss_transition_changes_state (c : RtsCfg) (st : RtsState) (hst : st.counter = c.collectStatsSteps)
    (stats threshold : ℝ) :
    (rtsStep c st (.call true true stats threshold)).1.counter = st.counter + 1 := by
  simp [rtsStep, rtsTrain, hst]

/-- The state required by `C16_local_loss_transition_changes_state` is reachable: one training call with
`collect_stats_steps = 1`. -/
example : (rtsRun ⟨1, none, .fp, none⟩ .init [.call true false 3 1]).counter = 1 := by
  simp [rtsRun, rtsStep, rtsTrain, RtsState.init]

/-- C16, zero points: eval calls, and local-loss calls outside the transition, keep the state. -/
theorem C16_zero_point_keeps_state (c : RtzCfg) (st : RtzState) (training localLoss : Bool)
    (h : training = false ∨ (localLoss = true ∧ st.counter ≠ c.collectStatsSteps)) (stats scale : ℝ) (bw : ℕ) :
    (rtzStep c st training localLoss stats scale bw).1 = st := by
  rcases h with rfl | ⟨rfl, hc⟩
  · simp only [rtzStep, Bool.false_eq_true, if_false]; split_ifs <;> rfl
  · cases training
    · simp only [rtzStep, Bool.false_eq_true, if_false]; split_ifs <;> rfl
    · simp only [rtzStep, if_true, rtzTrain, if_neg hc]; split_ifs <;> rfl

/-- C16, scales from parameter statistics: a local-loss call never changes the state and returns the scale that the first
regular call would return (for a non-negative statistic and the shipped restrictions). -/
theorem C16_parameter_stats_local_loss (r : Restrict) (hr : r = .fp ∨ r = .logFp ∨ ∃ f, r = .powerOfTwo f)
    (m : Option ℝ) (stats threshold : ℝ) (hs : 0 ≤ stats) (ht : 0 < threshold) :
    (pfsStep r m .init true stats threshold).1 = .init ∧
    (pfsStep r m .init true stats threshold).2 = (pfsStep r m .init false stats threshold).2 := by
  refine ⟨rfl, ?_⟩
  simp only [pfsStep, PfsState.init, Bool.false_eq_true, if_false, if_true, rawMul_one, statsScaling]
  symm
  apply abs_of_nonneg
  refine le_trans ?_ (le_clampMinVal _ _)
  rcases hr with rfl | rfl | ⟨f, rfl⟩
  · simp only [Restrict.init, Restrict.combine, Restrict.forward, WithBot.unbotD_coe]; positivity
  · exact pow2_nonneg _
  · exact pow2_nonneg _

/-! ## C17 -/

/-- Statistics are absolute values, and the momentum is a weight. -/
def Sane (c : RtsCfg) (h : List RtsEvent) : Prop :=
  (∀ s ∈ observed h, 0 ≤ s) ∧ ∀ m, c.momentum = some m → 0 ≤ m ∧ m ≤ 1

/-- Evaluating from the buffer and evaluating from the saved (restricted) buffer agree. -/
theorem eval_buffer_eq (c : RtsCfg) (hr : c.restrict = .fp ∨ c.restrict = .logFp ∨ ∃ f, c.restrict = .powerOfTwo f)
    (b threshold : ℝ) (hb : 0 ≤ b) (ht : 0 < threshold) :
    c.restrict.combine (c.restrict.init b) (c.restrict.init threshold) = c.restrict.init (b / threshold) := by
  have hlog : ∀ x : ℝ, x ≠ 0 → log2 x = ((Real.logb 2 x : ℝ) : Raw) := fun x hx => by simp [log2, hx]
  rcases hr with h | h | ⟨f, h⟩ <;> rw [h]
  · rfl
  all_goals
    simp only [Restrict.init]
    rcases hb.eq_or_lt with h0 | h0
    · simp [← h0, log2, Restrict.combine]
    · rw [hlog b h0.ne', hlog threshold ht.ne', hlog _ (div_pos h0 ht).ne', Real.logb_div h0.ne' ht.ne']
      rfl

/-- C17: after any calibration history with at least one training call, saving and loading into a fresh module succeeds
without missing keys and the loaded module returns the same scale for every inference input. Missing: a module saved
before any training call, for which a strict load raises (`C17_uncalibrated_not_loadable`). -/
theorem C17_round_trip_partial (c : RtsCfg) (hk : 0 < c.collectStatsSteps)
    (hr : c.restrict = .fp ∨ c.restrict = .logFp ∨ ∃ f, c.restrict = .powerOfTwo f)
    (h : List RtsEvent) (hp : PlainCalls h) (hs : Sane c h) (h1 : observed h ≠ []) (full : Bool)
    (stats threshold : ℝ) (ht : 0 < threshold) (ll : Bool) :
    let st := rtsRun c .init h
    let loaded := rtsLoad c false .init (rtsStateDict c full st)
    loaded.2 = false ∧
    (rtsStep c loaded.1 (.call false ll stats threshold)).2 = (rtsStep c st (.call false ll stats threshold)).2 := by
  intro st loaded
  have hlen : 0 < (observed h).length := List.length_pos_iff.mpr h1
  rcases Nat.lt_or_ge c.collectStatsSteps (observed h).length with hgt | hle
  · obtain ⟨ha, hb⟩ := (rts_invariant c hk h hp).2 hgt
    have ha : st.counter = _ := ha
    have hc0 : ¬ (st.counter = 0 ∧ full = false) := by
      intro hh; have := hh.1; omega
    have hc1 : ¬ st.counter ≤ c.collectStatsSteps := by omega
    have hsd : rtsStateDict c full st = some st.value := by
      simp only [rtsStateDict, if_neg hc0, if_neg hc1]
    have hl : loaded = ({ RtsState.init with value := st.value, counter := c.collectStatsSteps + 1 }, false) := by
      simp only [loaded, hsd, rtsLoad]
    refine ⟨by rw [hl], ?_⟩
    rw [hl]
    simp only [rtsStep, Bool.false_eq_true, if_false, rtsEval, if_neg hc1]
    rw [if_neg (by omega)]
  · obtain ⟨ha, hv, hb⟩ := (rts_invariant c hk h hp).1 hle
    rw [if_neg h1] at hb
    set avg := Spec.average c.momentum ((observed h).map (clampMinVal c.scalingMinVal)) with havg
    have hnn : 0 ≤ avg := by
      apply average_nonneg _ hs.2
      intro x hx
      obtain ⟨s, hs', rfl⟩ := List.mem_map.mp hx
      exact (hs.1 s hs').trans (le_clampMinVal _ _)
    have ha : st.counter = _ := ha
    have hc0 : ¬ (st.counter = 0 ∧ full = false) := by
      intro hh; have := hh.1; omega
    have hc1 : st.counter ≤ c.collectStatsSteps := by omega
    have hbuf : st.buffer = (avg : Raw) := hb
    have hsd : rtsStateDict c full st = some (c.restrict.init avg) := by
      simp only [rtsStateDict, if_neg hc0, if_pos hc1, hbuf, rtsPre]
    have hl : loaded = ({ RtsState.init with value := c.restrict.init avg, counter := c.collectStatsSteps + 1 }, false) := by
      simp only [loaded, hsd, rtsLoad]
    refine ⟨by rw [hl], ?_⟩
    rw [hl]
    simp only [rtsStep, Bool.false_eq_true, if_false, rtsEval, if_pos hc1, hbuf, WithBot.map_coe, rtsPre, rtsScale]
    rw [if_neg (by omega), eval_buffer_eq c hr avg threshold hnn ht]

/-- C17: a round trip after optimiser writes in the learning phase also keeps the scales. -/
theorem C17_round_trip_learned (c : RtsCfg) (st : RtsState) (hst : st.counter = c.collectStatsSteps + 1) (full ll : Bool)
    (stats threshold : ℝ) :
    let loaded := rtsLoad c false .init (rtsStateDict c full st)
    loaded.2 = false ∧
    (rtsStep c loaded.1 (.call false ll stats threshold)).2 = (rtsStep c st (.call false ll stats threshold)).2 := by
  intro loaded
  have hc0 : ¬ (st.counter = 0 ∧ full = false) := by intro hh; have := hh.1; omega
  have hc1 : ¬ st.counter ≤ c.collectStatsSteps := by omega
  have hl : loaded = ({ RtsState.init with value := st.value, counter := c.collectStatsSteps + 1 }, false) := by
    simp only [loaded, rtsStateDict, if_neg hc0, if_neg hc1, rtsLoad]
  refine ⟨by rw [hl], ?_⟩
  rw [hl]
  simp only [rtsStep, Bool.false_eq_true, if_false, rtsEval, if_neg hc1]
  rw [if_neg (by omega)]

/-- C17 fails for a module that was saved before its first training call: its state dict omits the value, so loading it
strictly reports a missing key, also into an identical module. -/
theorem C17_uncalibrated_not_loadable (c : RtsCfg) :
    (rtsLoad c false .init (rtsStateDict c false .init)).2 = true := rfl

/-- C17, zero points: the round trip keeps the zero point for every inference input. -/
theorem C17_zero_point_round_trip_partial (c : RtzCfg) (st : RtzState) (hst : st.counter ≠ 0) (ll : Bool)
    (stats scale : ℝ) (bw : ℕ) :
    let loaded := rtzLoad c false .init (rtzStateDict c st)
    loaded.2 = false ∧ (rtzStep c loaded.1 false ll stats scale bw).2 = (rtzStep c st false ll stats scale bw).2 := by
  intro loaded
  by_cases hc : st.counter ≤ c.collectStatsSteps
  · have hl : loaded = ({ RtzState.init with value := st.buffer, counter := c.collectStatsSteps + 1 }, false) := by
      simp only [loaded, rtzStateDict, if_neg hst, if_pos hc, rtzLoad]
    refine ⟨by rw [hl], ?_⟩
    rw [hl]
    simp only [rtzStep, Bool.false_eq_true, if_false, if_pos hc]
    rw [if_neg (by omega)]
  · have hl : loaded = ({ RtzState.init with value := st.value, counter := c.collectStatsSteps + 1 }, false) := by
      simp only [loaded, rtzStateDict, if_neg hst, if_neg hc, rtzLoad]
    refine ⟨by rw [hl], ?_⟩
    rw [hl]
    simp only [rtzStep, Bool.false_eq_true, if_false, if_neg hc]
    rw [if_neg (by omega)]

/-- C17, scales from parameter statistics: once a regular call has been made, the loaded module returns the same scale for
every later call, whatever the (possibly updated) weights. -/
theorem C17_parameter_stats_round_trip_partial (r : Restrict) (m : Option ℝ) (st : PfsState) (hst : st.initDone = true)
    (full ll : Bool) (stats stats' threshold : ℝ) :
    let loaded := pfsLoad false .init (pfsStateDict full st)
    loaded.2 = false ∧ (pfsStep r m loaded.1 ll stats threshold).2 = (pfsStep r m st ll stats' threshold).2 := by
  intro loaded
  have hl : loaded = (⟨true, st.value⟩, false) := by simp [loaded, pfsStateDict, hst, pfsLoad]
  exact ⟨by rw [hl], by rw [hl]; simp [pfsStep, hst]⟩

example : Sane ⟨2, some (1/10), .fp, none⟩ [.call true false 2 1] ∧ observed [.call true false 2 1] ≠ [] := by
  refine ⟨⟨?_, ?_⟩, by simp [observed]⟩
  · intro s hs; simp [observed] at hs; rw [hs]; norm_num
  · intro m hm; simp at hm; rw [← hm]; norm_num

/-! ## C18 -/

section BitWidth
variable {K : Type*} [Field K] [LinearOrder K] [IsStrictOrderedRing K] [FloorRing K]

/-- C18: whatever the optimiser writes into the offset, the bit width is an integer not below the minimum. -/
theorem C18_integral_and_above_min (bitWidth minBitWidth : ℤ) (init : K × ℤ)
    (_ : bitWidthParameterInit bitWidth minBitWidth = some init) (offset : K) :
    ∃ n : ℤ, bitWidthParameterForward offset init.2 = n ∧ init.2 ≤ n := by
  refine ⟨_, rfl, ?_⟩
  have := torchRound_mono (K := K) (a := ((init.2 : ℤ) : K)) (b := |offset| + (init.2 : K)) (by
    linarith [abs_nonneg offset])
  rwa [torchRound_faithful.int] at this

/-- C18: the base of an accepted configuration is the configured minimum, and before any update the bit width is the
configured one; configurations with a width below the minimum or below 2 are rejected. -/
theorem C18_initial_value (bitWidth minBitWidth : ℤ) :
    (bitWidthParameterInit (K := K) bitWidth minBitWidth = none ↔
      bitWidth < 2 ∨ minBitWidth < 2 ∨ bitWidth < minBitWidth) ∧
    ∀ init : K × ℤ, bitWidthParameterInit bitWidth minBitWidth = some init →
      init.2 = minBitWidth ∧ bitWidthParameterForward init.1 init.2 = (bitWidth : K) := by
  constructor
  · simp only [bitWidthParameterInit, minIntBitWidth]
    split_ifs with h1 h2 h3 <;> simp <;> omega
  · intro init h
    simp only [bitWidthParameterInit] at h
    split_ifs at h
    obtain rfl := (Option.some.inj h).symm
    refine ⟨rfl, ?_⟩
    simp only [bitWidthParameterForward]
    have : (0 : K) ≤ ((bitWidth - minBitWidth : ℤ) : K) := by exact_mod_cast (by omega : 0 ≤ bitWidth - minBitWidth)
    rw [abs_of_nonneg this]
    have e : ((bitWidth - minBitWidth : ℤ) : K) + (minBitWidth : K) = ((bitWidth : ℤ) : K) := by push_cast; ring
    rw [e, torchRound_faithful.int]

/-- C18: loading a checkpoint of a constant-width layer restores that width if it is not below the minimum. -/
theorem C18_load_constant_partial (bitWidth base : ℤ) (h : base ≤ bitWidth) :
    bitWidthParameterForward (bitWidthParameterLoadConst (bitWidth : K) base) base = (bitWidth : K) := by
  simp only [bitWidthParameterForward, bitWidthParameterLoadConst]
  have : (0 : K) ≤ (bitWidth : K) - base := by
    have : (base : K) ≤ bitWidth := by exact_mod_cast h
    linarith
  rw [abs_of_nonneg this]
  have e : (bitWidth : K) - base + base = ((bitWidth : ℤ) : K) := by ring
  rw [e, torchRound_faithful.int]

/-- C18: loading a constant width below the minimum silently mirrors it above the minimum: a 2-bit checkpoint loaded into
a layer with minimum 4 gives 6 bits. -/
theorem C18_load_below_min_mirrors :
    bitWidthParameterForward (bitWidthParameterLoadConst (2 : ℚ) 4) 4 = 6 := by decide +kernel

example : bitWidthParameterInit (K := ℚ) 8 2 = some (6, 2) ∧ bitWidthParameterForward (-37/10 : ℚ) 2 = 6 := by
  decide +kernel

/-! ## C19 -/

/-- C19: the clamped bit width is always inside the configured bounds. -/
theorem C19_in_bounds (inputBw toRemove lo hi : K) (h : lo ≤ hi) :
    lo ≤ msbClampBitWidth inputBw toRemove lo hi ∧ msbClampBitWidth inputBw toRemove lo hi ≤ hi := by
  simp only [msbClampBitWidth, tensorClamp_eq]
  exact ⟨le_max_right _ _, max_le (min_le_right _ _) h⟩

/-- C19: if no more bits are removed than the input has, the result is the difference clamped into the bounds. Missing:
removals larger than the input width, for which the claim is false (`C19_overremoval_fails`). -/
theorem C19_difference_partial (inputBw toRemove lo hi : K) (hle : toRemove ≤ inputBw) :
    msbClampBitWidth inputBw toRemove lo hi = max lo (min hi (inputBw - toRemove)) := by
  simp only [msbClampBitWidth, tensorClamp_eq, abs_of_nonneg (sub_nonneg.mpr hle)]
  rw [max_comm, min_comm]

/-- C19 fails when more bits are removed than the input has: the absolute value makes the width grow again. -/
theorem C19_overremoval_fails : msbClampBitWidth (8 : ℚ) 20 2 16 = 12 := by decide +kernel

/-- The learned removal is positive for every coefficient the optimiser writes. -/
theorem C19_removal_positive (coeff eps : K) (he : 0 < eps) :
    0 < removeBitWidthForward coeff eps ∧ removeBitWidthForward coeff eps ≤ 1 / eps := by
  have : 0 < eps + |coeff| := by linarith [abs_nonneg coeff]
  exact ⟨one_div_pos.mpr this, one_div_le_one_div_of_le he (by linarith [abs_nonneg coeff])⟩

/-- The removal is never exactly the configured number of bits (because of the epsilon), so the resulting width is not an
integer: removing 2 of 8 bits gives strictly between 6 and 7 bits. -/
theorem C19_not_integral : removeBitWidthInit 2 (1/10 : ℚ) = some (1/2) ∧
    6 < msbClampBitWidth (8 : ℚ) (removeBitWidthForward (1/2) (1/1000000)) 2 16 ∧
    msbClampBitWidth (8 : ℚ) (removeBitWidthForward (1/2) (1/1000000)) 2 16 < 7 := by
  refine ⟨by norm_num [removeBitWidthInit], by decide +kernel, by decide +kernel⟩

example : msbClampBitWidth (8 : ℚ) 3 2 16 = 5 ∧ msbClampBitWidth (8 : ℚ) 7 2 16 = 2 := by decide +kernel

end BitWidth

/-! ## C60 -/

/-- The statistics of the training calls. -/
def trainingStats (h : List (Bool × ℝ)) : List ℝ := (h.filter Prod.fst).map Prod.snd

/-- C60: in one process the running statistic used at inference is the average of all training statistics (true mean
without momentum, exponential average with momentum), whatever eval calls are interleaved. -/
theorem C60_running_average_partial (mo : Option ℝ) (h : List (Bool × ℝ)) (hne : trainingStats h ≠ []) :
    (runStatsRun mo .init h).counter = (trainingStats h).length ∧
    (runStatsStep mo (runStatsRun mo .init h) false 0).2 = Spec.average mo (trainingStats h) := by
  have key : ∀ h : List (Bool × ℝ), (runStatsRun mo .init h).counter = (trainingStats h).length ∧
      (runStatsRun mo .init h).running = if trainingStats h = [] then 1 else Spec.average mo (trainingStats h) := by
    intro h
    induction h using List.reverseRecOn with
    | nil => simp [runStatsRun, trainingStats, RunStats.init]
    | append_singleton h e ih =>
      obtain ⟨tr, s⟩ := e
      have hrun : runStatsRun mo .init (h ++ [(tr, s)]) = (runStatsStep mo (runStatsRun mo .init h) tr s).1 := by
        simp [runStatsRun, List.foldl_append]
      rw [hrun]
      cases tr with
      | false =>
        have ht : trainingStats (h ++ [(false, s)]) = trainingStats h := by
          simp [trainingStats, List.filter_append]
        rw [ht]; exact ih
      | true =>
        have ht : trainingStats (h ++ [(true, s)]) = trainingStats h ++ [s] := by simp [trainingStats]
        rw [ht]
        simp only [runStatsStep, if_true, List.length_append, List.length_singleton, ih.1]
        refine ⟨trivial, ?_⟩
        rw [if_neg (by simp : ¬ trainingStats h ++ [s] = [])]
        by_cases hz : trainingStats h = []
        · rw [hz] at ih ⊢
          simp [ih.2, average_singleton]
        · rw [if_neg (by simpa using hz), ih.2, if_neg hz]
          exact momentumUpdate_average mo _ hz s
  refine ⟨(key h).1, ?_⟩
  simp only [runStatsStep, Bool.false_eq_true, if_false]
  rw [(key h).2, if_neg hne]

/-- C60 fails across a checkpoint: the counter is not saved, so the first training call after loading multiplies the
loaded statistic by the new one instead of averaging: after loading 4 and seeing 4 again the running statistic is 16. -/
theorem C60_resume_fails : (runStatsRun (some (1/10)) (runStatsLoad .init 4) [(true, 4)]).running = 16 := by
  simp [runStatsRun, runStatsStep, runStatsLoad, RunStats.init]; norm_num

example : trainingStats [(true, 2), (false, 7), (true, 4)] = [2, 4] := by simp [trainingStats]

end Brevitas.Props
