import Verif.Lemmas.Checkpoint

/-!
# C124: checkpoints of earlier versions and of statistics-based quantisers

Entries of a state dict are renamed and converted before they are loaded; the loaded quantiser has the scale the saved one had in eval mode.
-/

namespace Brevitas.Props

open Brevitas Brevitas.Checkpoint

/-- Renaming by prefix: every entry under the old prefix is found, with its value, under the new one and no longer under the old one; all
the others stay. For every dictionary none of whose new keys is already taken. -/
theorem C124_rename {V : Type*} (old new : Key) (d : Dict V) (hnd : (d.map Prod.fst).Nodup)
    (hfree : ∀ rest, (d.get (old ++ rest)).isSome → d.get (new ++ rest) = none) :
    ∃ d', renameByPrefix old new d = some d' ∧
      (∀ rest, (d.get (old ++ rest)).isSome → d'.get (new ++ rest) = d.get (old ++ rest) ∧ d'.get (old ++ rest) = none) ∧
      ∀ k, (∀ rest, k ≠ old ++ rest) → (∀ rest, (d.get (old ++ rest)).isSome → k ≠ new ++ rest) → d'.get k = d.get k := by
  have hmem : ∀ k, k ∈ ((d.map Prod.fst).filter fun k => old.isPrefixOf k) ↔ (d.get k).isSome ∧ ∃ rest, k = old ++ rest := by
    intro k
    rw [List.mem_filter, mem_keys, isPrefixOf_iff]
  obtain ⟨d', h1, h2, h3, h4⟩ := moves (ρ := fun k => new ++ k.drop old.length) ((d.map Prod.fst).filter fun k => old.isPrefixOf k) d (hnd.filter _)
    (fun k hk => ((hmem k).1 hk).1)
    (by
      intro k hk
      obtain ⟨h, rest, rfl⟩ := (hmem k).1 hk
      simpa using hfree rest h)
    (by
      intro a ha b hb h
      obtain ⟨-, r, rfl⟩ := (hmem a).1 ha
      obtain ⟨-, r', rfl⟩ := (hmem b).1 hb
      simpa using h)
  refine ⟨d', h1, ?_, ?_⟩
  · intro rest hr
    have hk := (hmem (old ++ rest)).2 ⟨hr, rest, rfl⟩
    have := h2 _ hk
    rw [List.drop_left] at this
    exact ⟨this, h3 _ hk⟩
  · intro k hk hn
    refine h4 k (fun h => ?_) ?_
    · obtain ⟨-, rest, hr⟩ := (hmem k).1 h
      exact hk rest hr
    · intro j hj e
      obtain ⟨h, rest, rfl⟩ := (hmem j).1 hj
      rw [List.drop_left] at e
      exact hn rest h e.symm

/-- The same by postfix. -/
theorem C124_rename_postfix {V : Type*} (old new : Key) (d : Dict V) (hnd : (d.map Prod.fst).Nodup)
    (hfree : ∀ start, (d.get (start ++ old)).isSome → d.get (start ++ new) = none) :
    ∃ d', renameByPostfix old new d = some d' ∧
      (∀ start, (d.get (start ++ old)).isSome → d'.get (start ++ new) = d.get (start ++ old) ∧ d'.get (start ++ old) = none) ∧
      ∀ k, (∀ start, k ≠ start ++ old) → (∀ start, (d.get (start ++ old)).isSome → k ≠ start ++ new) → d'.get k = d.get k := by
  have hmem : ∀ k, k ∈ ((d.map Prod.fst).filter fun k => old.isSuffixOf k) ↔ (d.get k).isSome ∧ ∃ start, k = start ++ old := by
    intro k
    rw [List.mem_filter, mem_keys, isSuffixOf_iff]
  have htake : ∀ start : Key, (start ++ old).take ((start ++ old).length - old.length) = start := by
    intro start
    rw [List.length_append, Nat.add_sub_cancel, List.take_left]
  obtain ⟨d', h1, h2, h3, h4⟩ := moves (ρ := fun k => k.take (k.length - old.length) ++ new) ((d.map Prod.fst).filter fun k => old.isSuffixOf k) d
    (hnd.filter _) (fun k hk => ((hmem k).1 hk).1)
    (by
      intro k hk
      obtain ⟨h, start, rfl⟩ := (hmem k).1 hk
      simp only [htake]
      exact hfree start h)
    (by
      intro a ha b hb h
      obtain ⟨-, r, rfl⟩ := (hmem a).1 ha
      obtain ⟨-, r', rfl⟩ := (hmem b).1 hb
      simp only [htake] at h
      rw [List.append_cancel_right h])
  refine ⟨d', h1, ?_, ?_⟩
  · intro start hr
    have hk := (hmem (start ++ old)).2 ⟨hr, start, rfl⟩
    have := h2 _ hk
    rw [htake] at this
    exact ⟨this, h3 _ hk⟩
  · intro k hk hn
    refine h4 k (fun h => ?_) ?_
    · obtain ⟨-, start, hr⟩ := (hmem k).1 h
      exact hk start hr
    · intro j hj e
      obtain ⟨h, start, rfl⟩ := (hmem j).1 hj
      rw [htake] at e
      exact hn start h e.symm

/-- An activation layer loads what earlier versions saved as `act_quant_proxy` under the name `act_quant`. -/
theorem C124_act_layer {V : Type*} (pre : Key) (d : Dict V) (hnd : (d.map Prod.fst).Nodup)
    (hfree : ∀ rest, (d.get (pre ++ "act_quant_proxy".toList ++ rest)).isSome → d.get (pre ++ "act_quant".toList ++ rest) = none) :
    ∃ d', actLayerKeys pre d = some d' ∧
      ∀ name v, d.get (pre ++ "act_quant_proxy.".toList ++ name) = some v → d'.get (pre ++ "act_quant.".toList ++ name) = some v := by
  obtain ⟨d', h1, h2, -⟩ := C124_rename (pre ++ "act_quant_proxy".toList) (pre ++ "act_quant".toList) d hnd hfree
  refine ⟨d', h1, fun name v hv => ?_⟩
  have ho : pre ++ "act_quant_proxy.".toList ++ name = pre ++ "act_quant_proxy".toList ++ (".".toList ++ name) := by
    rw [List.append_assoc, List.append_assoc]
    rfl
  have hn : pre ++ "act_quant.".toList ++ name = pre ++ "act_quant".toList ++ (".".toList ++ name) := by
    rw [List.append_assoc, List.append_assoc]
    rfl
  rw [ho] at hv
  rw [hn, (h2 _ (by rw [hv]; rfl)).1, hv]

/-- Non-vacuity: an activation layer of an earlier version inside a model. -/
example : let d : Dict ℕ := [("f.act_quant_proxy.scale".toList, 1), ("f.input_quant.x".toList, 2), ("g.act_quant_proxy.scale".toList, 3)]
    (d.map Prod.fst).Nodup ∧ (actLayerKeys "f.".toList d).map (fun d' => (d'.get "f.act_quant.scale".toList, d'.get "g.act_quant_proxy.scale".toList)) =
      some (some 1, some 3) := by
  decide +kernel

/-- With both keys in the dictionary the value of the current one is lost. -/
theorem C124_clash_loses : let d : Dict ℕ := [("act_quant.scale".toList, 1), ("act_quant_proxy.scale".toList, 2)]
    (actLayerKeys [] d).map (fun d' => d'.map Prod.snd) = some [2] := by
  decide +kernel

/-- Converting statistics: the running statistic becomes the scale parameter unless there already is one; no entry of the statistics is left;
everything else stays. For every prefix and dictionary. -/
theorem C124_convert (r : Restrict) (pre : Key) (d : Dict Raw) :
    (∀ s : ℝ, d.get (pre ++ runningPostfix) = some (s : Raw) → d.get (pre ++ valuePostfix) = none →
        (convertStats r pre d).get (pre ++ valuePostfix) = some (r.init |s|)) ∧
      ((d.get (pre ++ valuePostfix)).isSome ∨ d.get (pre ++ runningPostfix) = none →
        (convertStats r pre d).get (pre ++ valuePostfix) = d.get (pre ++ valuePostfix)) ∧
      (∀ rest, (convertStats r pre d).get (pre ++ statsPostfix ++ rest) = none) ∧
      ∀ k, k ≠ pre ++ valuePostfix → (∀ rest, k ≠ pre ++ statsPostfix ++ rest) → (convertStats r pre d).get k = d.get k := by
  have hv : (pre ++ statsPostfix).isPrefixOf (pre ++ valuePostfix) = false := by
    rw [Bool.eq_false_iff]
    intro h
    rw [isPrefixOf_iff] at h
    obtain ⟨t, ht⟩ := h
    rw [List.append_assoc] at ht
    have := List.append_cancel_left ht
    have h2 := congrArg (List.take statsPostfix.length) this
    rw [List.take_left] at h2
    exact absurd h2 (by decide +kernel)
  have hget : ∀ d' k, Dict.get (List.filter (fun e => !(pre ++ statsPostfix).isPrefixOf e.1) d') k =
      if !(pre ++ statsPostfix).isPrefixOf k then Dict.get (V := Raw) d' k else none := fun d' k =>
    get_filter (fun a => !(pre ++ statsPostfix).isPrefixOf a) d' k
  unfold convertStats
  simp only [hget]
  refine ⟨?_, ?_, ?_, ?_⟩
  · intro s hs hn
    rw [hv, hs]
    simp only [hn, Option.isSome_none, Bool.false_eq_true, if_false, Bool.not_false, if_true]
    rw [get_put, if_pos rfl]
    rfl
  · intro h
    rw [hv]
    simp only [Bool.not_false, if_true]
    rcases h with h | h
    · cases d.get (pre ++ runningPostfix) with
      | none => rfl
      | some s => simp only [h, if_true]
    · rw [h]
  · intro rest
    have : (pre ++ statsPostfix).isPrefixOf (pre ++ statsPostfix ++ rest) = true := (isPrefixOf_iff _ _).2 ⟨rest, rfl⟩
    rw [this]
    rfl
  · intro k hk hn
    have : (pre ++ statsPostfix).isPrefixOf k = false := by
      rw [Bool.eq_false_iff]
      intro h
      obtain ⟨t, ht⟩ := (isPrefixOf_iff _ _).1 h
      exact hn t ht
    rw [this]
    simp only [Bool.not_false, if_true]
    cases d.get (pre ++ runningPostfix) with
    | none => rfl
    | some s =>
      cases h : (d.get (pre ++ valuePostfix)).isSome with
      | true => rfl
      | false =>
        simp only [Bool.false_eq_true, if_false]
        rw [get_put, if_neg hk]

/-- Non-vacuity: a quantiser that has only seen statistics. -/
example : let d : Dict Raw := [(runningPostfix, ((3 : ℝ) : Raw))]
    d.get ([] ++ runningPostfix) = some ((3 : ℝ) : Raw) ∧ d.get ([] ++ valuePostfix) = none := by
  refine ⟨rfl, ?_⟩
  rw [get_cons, if_neg (by decide +kernel)]
  rfl

/-- A checkpoint of a statistics-based quantiser loaded into one with a learned scale from statistics: in eval mode the scale is the one the
saved quantiser had in eval mode. For every restriction of the scale (floating point, logarithmic, power of two with any rounding), minimal
value, threshold, statistic and state of the target. -/
theorem C124_scale_from_stats (c : RtsCfg) (hr : ∀ f, c.restrict ≠ .int f) (st : RtsState) (ignoreMissing : Bool) (pre : Key) (d : Dict Raw) (s t : ℝ)
    (hs : 0 ≤ s) (ht : 0 < t) (hd : d.get (pre ++ runningPostfix) = some (s : Raw)) (hn : d.get (pre ++ valuePostfix) = none) :
    let l := rtsLoad c ignoreMissing st ((convertStats c.restrict pre d).get (pre ++ valuePostfix))
    l.2 = false ∧ rtsEval c l.1 t = statsScaling c.restrict c.scalingMinVal s t := by
  rw [(C124_convert c.restrict pre d).1 s hd hn]
  refine ⟨rfl, ?_⟩
  have hc : ¬ (rtsLoad c ignoreMissing st (some (c.restrict.init |s|))).1.counter ≤ c.collectStatsSteps := by
    change ¬ c.collectStatsSteps + 1 ≤ c.collectStatsSteps
    omega
  simp only [rtsEval]
  rw [if_neg hc]
  change rtsScale c (c.restrict.init |s|) t = _
  rw [abs_of_nonneg hs]
  exact abs_of_nonneg (combine_init c.restrict hr c.scalingMinVal s t hs ht)

/-- The same for a learned scale proper, restricted to floating point, logarithmic or rounded powers of two with a power of two as threshold
and a rounding that commutes with integers, when the minimal value does not bite. -/
theorem C124_scale_parameter (r : Restrict) (m : Option ℝ) (pre : Key) (d : Dict Raw) (s t : ℝ) (hs : 0 < s) (ht : 0 < t)
    (hd : d.get (pre ++ runningPostfix) = some (s : Raw)) (hn : d.get (pre ++ valuePostfix) = none)
    (hr : r = .fp ∨ r = .logFp ∨ ∃ (f : ℝ → ℤ) (n : ℕ), r = .powerOfTwo f ∧ t = 2 ^ n ∧ (∀ (x : ℝ) (z : ℤ), f (x - z) = f x - z) ∧ ∀ z : ℤ, f z = z)
    (hm : ∀ v ∈ m, v ≠ 0 → v ≤ r.forward (r.init s) ∧ v ≤ r.forward (r.init t) ∧ v ≤ r.forward (r.combine (r.init s) (r.init t))) :
    ((convertStats r pre d).get (pre ++ valuePostfix)).map (fun v => parameterScaling r m v t) = some (statsScaling r m s t) := by
  rw [(C124_convert r pre d).1 s hd hn, abs_of_pos hs]
  simp only [Option.map_some, Option.some.injEq]
  have hclamp : ∀ x : ℝ, (∀ v ∈ m, v ≠ 0 → v ≤ x) → clampMinVal m x = x := by
    intro x hx
    unfold clampMinVal
    cases m with
    | none => rfl
    | some v =>
      simp only
      split_ifs with h0
      · rfl
      · have := hx v rfl h0
        exact max_eq_left this
  have h1 : restrictClamp r m (r.init s) = r.forward (r.init s) := hclamp _ fun v hv h0 => (hm v hv h0).1
  have h2 : restrictClamp r m (r.init t) = r.forward (r.init t) := hclamp _ fun v hv h0 => (hm v hv h0).2.1
  have h3 : restrictClamp r m (r.combine (r.init s) (r.init t)) = r.forward (r.combine (r.init s) (r.init t)) :=
    hclamp _ fun v hv h0 => (hm v hv h0).2.2
  unfold parameterScaling statsScaling
  simp only [h1, h2, h3]
  have hls : log2 s = ((Real.logb 2 s : ℝ) : Raw) := if_neg hs.ne'
  have hlt : log2 t = ((Real.logb 2 t : ℝ) : Raw) := if_neg ht.ne'
  rcases hr with rfl | rfl | ⟨f, n, rfl, rfl, hf, hz⟩
  · change |s| / t = s / t
    rw [abs_of_pos hs]
  · simp only [Restrict.init, Restrict.forward, hls, hlt]
    change |(2 : ℝ) ^ Real.logb 2 s| / (2 : ℝ) ^ Real.logb 2 t = (2 : ℝ) ^ (Real.logb 2 s - Real.logb 2 t)
    rw [abs_of_pos (Real.rpow_pos_of_pos (by norm_num) _), Real.rpow_sub (by norm_num)]
  · have hn : Real.logb 2 ((2 : ℝ) ^ n) = ((n : ℤ) : ℝ) := by
      rw [← Real.rpow_natCast, Real.logb_rpow (by norm_num) (by norm_num)]
      norm_cast
    simp only [Restrict.init, Restrict.forward, hls, hlt, hn]
    change |(2 : ℝ) ^ ((f (Real.logb 2 s) : ℤ) : ℝ)| / (2 : ℝ) ^ ((f ((n : ℤ) : ℝ) : ℤ) : ℝ) = (2 : ℝ) ^ ((f (Real.logb 2 s - ((n : ℤ) : ℝ)) : ℤ) : ℝ)
    rw [abs_of_pos (Real.rpow_pos_of_pos (by norm_num) _), ← Real.rpow_sub (by norm_num), hf, hz]
    push_cast
    rfl

/-- Non-vacuity: the rounding of the fixed-point presets is upwards, which commutes with integers. -/
example : (∀ (x : ℝ) (z : ℤ), torchCeil (x - z) = torchCeil x - z) ∧ ∀ z : ℤ, torchCeil ((z : ℤ) : ℝ) = z := by
  constructor
  · intro x z
    exact Int.ceil_sub_intCast x z
  · intro z
    exact Int.ceil_intCast z

/-- Below the minimal value the two differ: the statistics-based quantiser clamps the quotient, the learned one the dividend. -/
theorem C124_min_value_differs : parameterScaling .fp (some 1) ((Restrict.fp).init |(1 / 2 : ℝ)|) 2 ≠ statsScaling .fp (some 1) (1 / 2) 2 := by
  have h1 : parameterScaling .fp (some 1) ((Restrict.fp).init |(1 / 2 : ℝ)|) 2 = 1 / 2 := by
    change abs (clampMinVal (some 1) (abs (1 / 2 : ℝ))) / clampMinVal (some 1) 2 = 1 / 2
    norm_num [clampMinVal, clampMin]
  have h2 : statsScaling .fp (some 1) (1 / 2) 2 = 1 := by
    change clampMinVal (some 1) ((1 / 2 : ℝ) / 2) = 1
    norm_num [clampMinVal, clampMin]
  rw [h1, h2]
  norm_num

/-- With scales rounded to the nearest power of two, ties to even, they differ as well. -/
theorem C124_round_differs : parameterScaling (.powerOfTwo torchRound) none ((Restrict.powerOfTwo torchRound).init |(2 : ℝ) ^ (1 / 2 : ℝ)|) 2 ≠
    statsScaling (.powerOfTwo torchRound) none ((2 : ℝ) ^ (1 / 2 : ℝ)) 2 := by
  have hp : (0 : ℝ) < (2 : ℝ) ^ (1 / 2 : ℝ) := Real.rpow_pos_of_pos (by norm_num) _
  have hls : log2 ((2 : ℝ) ^ (1 / 2 : ℝ)) = (((1 / 2 : ℝ)) : Raw) := by
    unfold log2
    rw [if_neg hp.ne', Real.logb_rpow (by norm_num) (by norm_num)]
  have hlt : log2 2 = ((1 : ℝ) : Raw) := by
    unfold log2
    rw [if_neg (by norm_num), Real.logb_self_eq_one (by norm_num)]
  have f1 : ⌊(1 / 2 : ℝ)⌋ = 0 := by rw [Int.floor_eq_iff]; norm_num
  have f2 : ⌊(1 / 2 - 1 : ℝ)⌋ = -1 := by rw [Int.floor_eq_iff]; norm_num
  have f3 : ⌊(1 : ℝ)⌋ = 1 := by rw [Int.floor_eq_iff]; norm_num
  have r1 : torchRound (1 / 2 : ℝ) = 0 := by
    unfold torchRound
    simp only [f1]
    norm_num
  have r2 : torchRound (1 / 2 - 1 : ℝ) = 0 := by
    unfold torchRound
    simp only [f2]
    norm_num
  have r3 : torchRound (1 : ℝ) = 1 := by
    unfold torchRound
    simp only [f3]
    norm_num
  rw [abs_of_pos hp]
  unfold parameterScaling statsScaling restrictClamp clampMinVal
  simp only [Restrict.init, Restrict.forward, hls, hlt]
  change |(2 : ℝ) ^ ((torchRound (1 / 2 : ℝ) : ℤ) : ℝ)| / (2 : ℝ) ^ ((torchRound (1 : ℝ) : ℤ) : ℝ) ≠ (2 : ℝ) ^ ((torchRound (1 / 2 - 1 : ℝ) : ℤ) : ℝ)
  rw [r1, r2, r3]
  norm_num

section Bias
variable {K : Type*} [Field K]

/-- A bias that bias correction added to the saved model is loaded into a layer built without one, inside `load_quant_model_mode`; outside, a
strict load of that checkpoint raises. A layer that has a bias loads it either way. -/
theorem C124_bias (l : WbLayer K) (hl : l.loadMode = false) (b : List K) (hb : b.length = l.outChannels)
    (hlb : ∀ v ∈ l.bias, v.length = l.outChannels) :
    loadBiasInMode l (some b) = ({ l with bias := some b }, true) ∧
      (l.bias = none → (loadBias l (some b)).2 = false) ∧ (l.bias.isSome → loadBias l (some b) = ({ l with bias := some b }, true)) := by
  obtain ⟨n, bias, mode⟩ := l
  simp only at hl hb hlb
  subst hl
  refine ⟨?_, ?_, ?_⟩
  · cases bias with
    | none => simp [loadBiasInMode, loadBias, hb]
    | some v => simp [loadBiasInMode, loadBias, hb, hlb v rfl]
  · rintro rfl
    simp [loadBias]
  · intro h
    obtain ⟨v, rfl⟩ := Option.isSome_iff_exists.1 h
    simp [loadBias, hb, hlb v rfl]

/-- A checkpoint without a bias loads into a layer without one, in the mode or not, and leaves it without. -/
theorem C124_no_bias (l : WbLayer K) (hb : l.bias = none) : (loadBias l none).1.bias = none ∧ (loadBias l none).2 = true := by
  obtain ⟨n, bias, mode⟩ := l
  simp only at hb
  subst hb
  simp [loadBias]

/-- Non-vacuity: two channels. -/
example : (⟨2, none, false⟩ : WbLayer ℚ).loadMode = false ∧ ([1, 2] : List ℚ).length = 2 := ⟨rfl, rfl⟩

end Bias

end Brevitas.Props
