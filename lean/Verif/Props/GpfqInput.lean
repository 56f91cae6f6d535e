import Verif.Props.GptqInput
import Verif.Lemmas.Dynamic
import Verif.Lemmas.ChannelScale

/-!
# C120: the inputs that GPFQ keeps
-/

namespace Brevitas.Props

open Brevitas NdTensor QuantConv GptqInput

/-- The number of windows of all the samples of a layer input together. -/
def windowCount (fn : LayerFn) (kernel : List ℕ) (x : NdTensor ℝ) : ℕ :=
  match GpfqInput.windows fn kernel x with
  | some (u :: _) => u.shape.getD 0 0 * u.shape.getD 2 0
  | _ => 0

/-- Window `s` of a layer input, in group `g`. -/
def windowRow (fn : LayerFn) (kernel : List ℕ) (x : NdTensor ℝ) (g s : ℕ) : ℕ → ℝ :=
  match GpfqInput.windows fn kernel x with
  | some us => GpfqInput.rowOf (us.getD g ⟨[], fun _ => 0⟩) s
  | none => fun _ => 0

theorem selected_lt {rand l : List ℕ} {n : ℕ} (h : GpfqInput.selected rand n = some l) : ∀ i ∈ l, i < n := by
  unfold GpfqInput.selected at h
  cases hm : rand.max? with
  | none => rw [hm] at h; cases h
  | some mx =>
    rw [hm] at h
    dsimp only at h
    by_cases hc : ∀ i ∈ (if mx > n then rand.filter (· < n) else rand), i < n
    · rw [if_pos hc] at h
      cases h
      exact hc
    · rw [if_neg hc] at h
      cases h

theorem update_rows {fn : LayerFn} {kernel : List ℕ} {p : ℚ} {draw : ℕ → ℕ → ℕ} {b : Bool} {x : NdTensor ℝ} {st st' : GpfqInput.State}
    (h : GpfqInput.update fn kernel p draw b x st = some st') :
    ∃ rand indexes, st'.rand = some rand ∧ (∀ r, st.rand = some r → rand = r) ∧ GpfqInput.selected rand (windowCount fn kernel x) = some indexes ∧
      (∀ g, st'.quant g = st.quant g ++ if b then indexes.map (windowRow fn kernel x g) else []) ∧
      ∀ g, st'.float g = st.float g ++ if b then [] else indexes.map (windowRow fn kernel x g) := by
  unfold GpfqInput.update at h
  cases hw : GpfqInput.windows fn kernel x with
  | none => rw [hw] at h; cases h
  | some us =>
    rw [hw] at h
    cases us with
    | nil => cases h
    | cons u us =>
      simp only [Option.bind_some] at h
      rw [Option.map_eq_some_iff] at h
      obtain ⟨indexes, h1, rfl⟩ := h
      have hcount : windowCount fn kernel x = u.shape.getD 0 0 * u.shape.getD 2 0 := by unfold windowCount; rw [hw]
      have hrow : ∀ g, windowRow fn kernel x g = GpfqInput.rowOf ((u :: us).getD g ⟨[], fun _ => 0⟩) := by
        intro g
        funext s
        unfold windowRow
        rw [hw]
      refine ⟨st.rand.getD (GpfqInput.randIndices p (u.shape.getD 0 0) (u.shape.getD 2 0) draw), indexes, ?_, ?_, ?_, ?_, ?_⟩
      · cases b <;> rfl
      · intro r hr
        rw [hr]
        rfl
      · rw [hcount]
        exact h1
      · intro g
        cases b
        · simp
        · simp [hrow]
      · intro g
        cases b
        · simp [hrow]
        · simp

/-- C120, pairing: whatever the random numbers, the rows GPFQ keeps with quantisation and the rows it keeps without are the same windows of the same samples, in the same order
and in every group. -/
theorem C120_paired (fn : LayerFn) (kernel : List ℕ) (p : ℚ) (draw : ℕ → ℕ → ℕ) (batches : List (NdTensor ℝ × NdTensor ℝ))
    (hsame : ∀ b ∈ batches, windowCount fn kernel b.1 = windowCount fn kernel b.2) (st : GpfqInput.State) (h : GpfqInput.run fn kernel p draw batches {} = some st) :
    ∃ W : List ((NdTensor ℝ × NdTensor ℝ) × ℕ), (∀ a ∈ W, a.1 ∈ batches ∧ a.2 < windowCount fn kernel a.1.1) ∧
      ∀ g, st.quant g = W.map (fun a => windowRow fn kernel a.1.1 g a.2) ∧ st.float g = W.map (fun a => windowRow fn kernel a.1.2 g a.2) := by
  have key : ∀ (bs : List (NdTensor ℝ × NdTensor ℝ)) (s0 s1 : GpfqInput.State), (∀ b ∈ bs, windowCount fn kernel b.1 = windowCount fn kernel b.2) →
      GpfqInput.run fn kernel p draw bs s0 = some s1 → ∃ W : List ((NdTensor ℝ × NdTensor ℝ) × ℕ), (∀ a ∈ W, a.1 ∈ bs ∧ a.2 < windowCount fn kernel a.1.1) ∧
      ∀ g, s1.quant g = s0.quant g ++ W.map (fun a => windowRow fn kernel a.1.1 g a.2) ∧ s1.float g = s0.float g ++ W.map (fun a => windowRow fn kernel a.1.2 g a.2) := by
    intro bs
    induction bs with
    | nil =>
      intro s0 s1 _ h
      cases h
      exact ⟨[], by simp, by simp⟩
    | cons b bs ih =>
      intro s0 s1 hs h
      obtain ⟨xq, xf⟩ := b
      simp only [GpfqInput.run] at h
      obtain ⟨sa, ha, h⟩ := Option.bind_eq_some_iff.1 h
      obtain ⟨sb, hb, h⟩ := Option.bind_eq_some_iff.1 h
      obtain ⟨ra, ia, a1, a2, a3, a4, a5⟩ := update_rows ha
      obtain ⟨rb, ib, b1, b2, b3, b4, b5⟩ := update_rows hb
      obtain ⟨W, w1, w2⟩ := ih sb s1 (fun b hb => hs b (List.mem_cons_of_mem _ hb)) h
      obtain rfl := b2 ra a1
      have hc := hs (xq, xf) (by simp)
      dsimp only at hc
      rw [← hc, a3] at b3
      cases b3
      refine ⟨ia.map (fun i => ((xq, xf), i)) ++ W, ?_, ?_⟩
      · intro a ha'
        rw [List.mem_append] at ha'
        rcases ha' with ha' | ha'
        · obtain ⟨i, hi, rfl⟩ := List.mem_map.1 ha'
          exact ⟨by simp, selected_lt a3 i hi⟩
        · exact ⟨List.mem_cons_of_mem _ (w1 a ha').1, (w1 a ha').2⟩
      · intro g
        obtain ⟨w3, w4⟩ := w2 g
        rw [w3, w4, b4, b5, a4, a5]
        simp [List.map_map, Function.comp_def]
  obtain ⟨W, h1, h2⟩ := key batches {} st hsame h
  exact ⟨W, h1, fun g => by simpa using h2 g⟩

theorem convSum_rows (w : NdTensor ℝ) (bias : Option (List ℕ → ℝ)) (stride dilation ks : List ℕ) (pg cg co : ℕ) (o : List ℕ) (read : ℕ → List ℕ → ℝ) :
    convSum w bias stride dilation ks pg cg co o read = ((List.range (cg * ks.prod)).map fun i => w.data (co :: fromPosition (cg :: ks) i) *
        read (co / pg * cg + i / ks.prod) (tapPos stride dilation o (fromPosition ks (i % ks.prod)))).sum + (bias.map fun b => b [co]).getD 0 := by
  unfold convSum
  congr 1
  simp only [position_sum ks]
  exact (two_sum cg ks.prod fun a b => w.data (co :: a :: fromPosition ks b) * read (co / pg * cg + a) (tapPos stride dilation o (fromPosition ks b))).symm

/-- C120, windows: if the convolution moves its window by the size of the kernel, the windows GPFQ looks at are those of the layer: output `[n, o, l]` is the product of the
weights of channel `o` and window `l` of sample `n`, plus the bias. -/
theorem C120_windows (stride padding dilation : List ℕ) (groups : ℕ) (x w : NdTensor ℝ) (bias : Option (List ℕ → ℝ)) (hk : stride = w.shape.drop 2) (y : NdTensor ℝ)
    (hy : convPadNd stride padding dilation groups x w bias = some y) (n o : ℕ) (l : List ℕ) (hi : InBounds y.shape (n :: o :: l)) :
    y.data (n :: o :: l) = ((List.range (w.shape.drop 1).prod).map fun i => weightRow w o i *
      windowRow (.conv stride padding dilation groups) (w.shape.drop 2) x (o / (w.shape.getD 0 0 / groups)) (n * (y.shape.drop 2).prod + _root_.Brevitas.Spec.ravel (y.shape.drop 2) l) i).sum +
        (bias.map fun b => b [o]).getD 0 := by
  unfold convPadNd at hy
  by_cases hlen : padding.length + 2 = x.shape.length
  swap
  · rw [if_neg hlen] at hy
    cases hy
  rw [if_pos hlen] at hy
  unfold convNd at hy
  obtain ⟨bt, ch, sp, hx⟩ : ∃ bt ch sp, x.shape = bt :: ch :: sp := by
    match hx : x.shape, hlen with
    | bt :: ch :: sp, _ => exact ⟨bt, ch, sp, rfl⟩
  rw [hx] at hlen
  have hpl : padding.length = sp.length := by simpa using hlen
  have hlr : ((padPairs (symPads padding)).reverse).length = sp.length := by rw [List.length_reverse, padPairs_symPads, hpl]
  have hlead : sp.length + 1 + 1 - sp.length = 2 := by omega
  have hps : (padZeros (symPads padding) x).shape = bt :: ch :: List.zipWith (fun n p => p.1 + n + p.2) sp (padPairs (symPads padding)).reverse := by
    unfold padZeros
    simp only [hx, List.length_cons, hlr, hlead]
    rfl
  have hzl : (List.zipWith (fun (n : ℕ) (p : ℕ × ℕ) => p.1 + n + p.2) sp (padPairs (symPads padding)).reverse).length = sp.length := by
    rw [List.length_zipWith, hlr, Nat.min_self]
  obtain ⟨P, hP⟩ : ∃ P, P = padZeros (symPads padding) x := ⟨_, rfl⟩
  rw [← hP] at hy hps
  obtain ⟨psp, hpsp⟩ : ∃ psp, psp = List.zipWith (fun (n : ℕ) (p : ℕ × ℕ) => p.1 + n + p.2) sp (padPairs (symPads padding)).reverse := ⟨_, rfl⟩
  rw [← hpsp] at hps hzl
  rw [hps] at hy
  obtain ⟨out, cg, ks, hws⟩ : ∃ out cg ks, w.shape = out :: cg :: ks := by
    match hws : w.shape with
    | out :: cg :: ks => exact ⟨out, cg, ks, rfl⟩
    | [] => rw [hws] at hy; cases hy
    | [a] => rw [hws] at hy; cases hy
  rw [hws] at hy hk ⊢
  dsimp only at hy
  by_cases hcond : psp.length = ks.length ∧ stride.length = ks.length ∧ dilation.length = ks.length ∧ 0 < groups ∧ ch = cg * groups ∧ out % groups = 0 ∧
      (∀ s ∈ stride, 0 < s) ∧ ∀ a ∈ zip4 psp ks stride dilation, (a.2.1 - 1) * a.2.2.2 + 1 ≤ a.1
  swap
  · rw [if_neg hcond] at hy
    cases hy
  rw [if_pos hcond] at hy
  obtain ⟨c1, c2, c3, c4, rfl, c6, c7, c8⟩ := hcond
  simp only [List.drop_succ_cons, List.drop_zero] at hk
  subst hk
  cases hy
  obtain ⟨sizes, hsz⟩ : ∃ sizes, sizes = (zip4 psp stride stride dilation).map fun a => convSize a.1 a.2.1 a.2.2.1 a.2.2.2 := ⟨_, rfl⟩
  rw [← hsz] at hi
  cases hi with
  | cons hn hi =>
  cases hi with
  | cons ho hl =>
  have hr : _root_.Brevitas.Spec.ravel sizes l < sizes.prod := ravel_lt ((inBounds_iff_inRange _ _).1 hl)
  have hg : o / (out / groups) < groups := by
    have := group_lt (cg := 1) (ci := 0) ho c6 (by omega)
    simpa using this
  have hwin : ∃ us, GpfqInput.windows (.conv stride padding dilation groups) stride x = some us ∧ ∀ g < groups, ∃ u, us[g]? = some u ∧ u.shape.getD 2 0 = sizes.prod ∧
      ∀ n i s, u.data [n, i, s] = P.data (n :: (g * cg + i / stride.prod) :: tapPos stride dilation (fromPosition sizes s) (fromPosition stride (i % stride.prod))) := by
    unfold GpfqInput.windows
    simp only
    rw [chunk_eq groups cg bt c4 sp x hx, List.mapM_map]
    refine ⟨_, mapM_some _ _ (fun g => ⟨[bt, cg * stride.prod, sizes.prod], fun idx => P.data (idx.getD 0 0 :: (g * cg + idx.getD 1 0 / stride.prod) ::
        tapPos stride dilation (fromPosition sizes (idx.getD 2 0)) (fromPosition stride (idx.getD 1 0 % stride.prod)))⟩) ?_, ?_⟩
    · intro g _
      obtain ⟨q1, q2⟩ := padZeros_chunk padding bt (cg * groups) cg sp hpl x hx (g * cg)
      rw [← hP] at q1 q2
      unfold unfoldNd
      simp only [Function.comp_apply]
      rw [q1, hps]
      simp only [List.drop_succ_cons, List.drop_zero]
      rw [if_pos ⟨hpl, by omega, by omega, by omega, c7, c8⟩]
      simp only [← hsz, q2]
    · intro g hg
      refine ⟨_, by rw [List.getElem?_map, List.getElem?_range hg]; rfl, rfl, fun n i s => rfl⟩
  obtain ⟨us, u1, u2⟩ := hwin
  obtain ⟨u, u3, u4, u5⟩ := u2 _ hg
  have hrow : ∀ i, windowRow (.conv stride padding dilation groups) stride x (o / (out / groups)) (n * sizes.prod + _root_.Brevitas.Spec.ravel sizes l) i =
      P.data (n :: (o / (out / groups) * cg + i / stride.prod) :: tapPos stride dilation l (fromPosition stride (i % stride.prod))) := by
    intro i
    unfold windowRow
    rw [u1]
    simp only
    rw [List.getD_eq_getElem?_getD, u3]
    simp only [Option.getD_some]
    unfold GpfqInput.rowOf
    rw [u4, u5, Nat.mul_comm n, Nat.mul_add_div (by omega), Nat.div_eq_of_lt hr, Nat.mul_add_mod, Nat.mod_eq_of_lt hr, Dynamic.fromPosition_ravel hl]
    rfl
  dsimp only
  rw [convSum_rows]
  simp only [← hsz, List.drop_succ_cons, List.drop_zero, List.getD_cons_zero, List.getD_cons_succ, hrow, weightRow, hws, List.prod_cons]

/-- Two windows of two numbers, in two samples. -/
noncomputable def twoWindows : NdTensor ℝ := ⟨[2, 1, 4], fun idx => idx.getD 0 0 + 2 * idx.getD 2 0⟩

example : ∃ st, GpfqInput.run (.conv [2] [0] [1] 1) [2] (1 / 2) (fun i k => i + k) [(twoWindows, twoWindows)] {} = some st ∧ (st.quant 0).length = 4 := by
  have hd : GpfqInput.drawSize (1 / 2) 2 = 2 := by
    unfold GpfqInput.drawSize
    rw [if_neg (by norm_num)]
    norm_num
    rfl
  have hr : GpfqInput.randIndices (1 / 2) 2 2 (fun i k => i + k) = [0, 1, 3, 2] := by
    unfold GpfqInput.randIndices
    rw [hd]
    rfl
  obtain ⟨u, h1, h2⟩ : ∃ u, GpfqInput.windows (.conv [2] [0] [1] 1) [2] twoWindows = some [u] ∧ u.shape = [2, 2, 2] := ⟨_, rfl, rfl⟩
  have hs : GpfqInput.selected [0, 1, 3, 2] 4 = some [0, 1, 3, 2] := by decide
  rw [one_div] at hr
  simp [GpfqInput.run, GpfqInput.update, h1, h2, hr, hs]

example (n o : ℕ) (l : List ℕ) (y : NdTensor ℝ) (hy : convPadNd [2] [0] [1] 1 twoWindows ⟨[3, 1, 2], fun _ => 5⟩ none = some y) (hi : InBounds y.shape (n :: o :: l)) :=
  C120_windows [2] [0] [1] 1 twoWindows ⟨[3, 1, 2], fun _ => 5⟩ none rfl y hy n o l hi

example : ∃ y, convPadNd [2] [0] [1] 1 twoWindows ⟨[3, 1, 2], fun _ => 5⟩ none = some y ∧ y.shape = [2, 3, 2] := ⟨_, rfl, rfl⟩

/-- C120 is false of the code for convolutions with a stride below the size of the kernel: windows are missed. The only window looked at is zero, the layer output is not. -/
theorem C120_windows_missed : ∃ x w y : NdTensor ℝ, convPadNd [1] [0] [1] 1 x w none = some y ∧ y.data [0, 0, 1] ≠ 0 ∧
    windowCount (.conv [1] [0] [1] 1) [2] x = 1 ∧ windowRow (.conv [1] [0] [1] 1) [2] x 0 0 0 = 0 ∧ windowRow (.conv [1] [0] [1] 1) [2] x 0 0 1 = 0 := by
  refine ⟨⟨[1, 1, 3], fun idx => if idx.getD 2 0 = 2 then 1 else 0⟩, ⟨[1, 1, 2], fun _ => 1⟩, _, rfl, ?_, rfl, ?_, ?_⟩
  · simp [convSum, indices, tapPos, padZeros, symPads, padPairs, List.range_succ]
  all_goals simp [windowRow, GpfqInput.windows, chunk, unfoldNd, GpfqInput.rowOf, tapPos, padZeros, symPads, padPairs, List.range_succ, fromPosition, zip4, convSize]

/-- C120 is false of the code for convolutions with a stride above the size of the kernel: windows that the layer does not have are looked at. All the outputs are zero, the
second window looked at is not. -/
theorem C120_foreign_windows : ∃ x : NdTensor ℝ,
    (∀ f : List ℕ → ℝ, ∃ y, convPadNd [3] [0] [1] 1 x ⟨[1, 1, 2], f⟩ none = some y ∧ y.shape = [1, 1, 2] ∧ y.data [0, 0, 0] = 0 ∧ y.data [0, 0, 1] = 0) ∧
    windowRow (.conv [3] [0] [1] 1) [2] x 0 1 0 = 1 := by
  refine ⟨⟨[1, 1, 5], fun idx => if idx.getD 2 0 = 2 then 1 else 0⟩, ?_, ?_⟩
  · intro f
    refine ⟨_, rfl, rfl, ?_, ?_⟩
    all_goals simp [convSum, indices, tapPos, padZeros, symPads, padPairs, List.range_succ]
  · simp [windowRow, GpfqInput.windows, chunk, unfoldNd, GpfqInput.rowOf, tapPos, padZeros, symPads, padPairs, List.range_succ, fromPosition, zip4, convSize]

/-- C120 is false of the code if a later batch has one sample less than the first, for a layer with one window per sample: an index is out of range. -/
theorem C120_smaller_batch_raises (draw : ℕ → ℕ → ℕ) (a b c d : NdTensor ℝ) (ha : a.shape = [3, 1, 1]) (hb : b.shape = [3, 1, 1]) (hc : c.shape = [2, 1, 1]) :
    GpfqInput.run (.conv [1] [0] [1] 1) [1] 1 draw [(a, b), (c, d)] {} = none := by
  have hw : ∀ (n : ℕ) (x : NdTensor ℝ), x.shape = [n, 1, 1] → ∃ u, GpfqInput.windows (.conv [1] [0] [1] 1) [1] x = some [u] ∧ u.shape = [n, 1, 1] := by
    intro n x hx
    simp [GpfqInput.windows, chunk_eq 1 1 n (by decide) [1] x hx, unfoldNd, padZeros, symPads, padPairs, zip4, convSize]
  obtain ⟨ua, a1, a2⟩ := hw 3 a ha
  obtain ⟨ub, b1, b2⟩ := hw 3 b hb
  obtain ⟨uc, c1, c2⟩ := hw 2 c hc
  have hr : GpfqInput.randIndices 1 3 1 draw = [0, 1, 2] := by
    simp [GpfqInput.randIndices, GpfqInput.drawSize, List.range_succ, Nat.mod_one]
  have h1 : GpfqInput.selected [0, 1, 2] 3 = some [0, 1, 2] := by decide
  have h2 : GpfqInput.selected [0, 1, 2] 2 = none := by decide
  simp [GpfqInput.run, GpfqInput.update, a1, a2, b1, b2, c1, c2, hr, h1, h2]

/-- C120 is false of the code if a later batch is larger than the first: its last samples are not used. -/
theorem C120_larger_batch_ignored (draw : ℕ → ℕ → ℕ) (a b c d : NdTensor ℝ) (ha : a.shape = [1, 1, 1]) (hb : b.shape = [1, 1, 1]) (hc : c.shape = [2, 1, 1]) (hd : d.shape = [2, 1, 1]) :
    ∃ st, GpfqInput.run (.conv [1] [0] [1] 1) [1] 1 draw [(a, b), (c, d)] {} = some st ∧
      st.quant 0 = [windowRow (.conv [1] [0] [1] 1) [1] a 0 0, windowRow (.conv [1] [0] [1] 1) [1] c 0 0] := by
  have hw : ∀ (n : ℕ) (x : NdTensor ℝ), x.shape = [n, 1, 1] → ∃ u, GpfqInput.windows (.conv [1] [0] [1] 1) [1] x = some [u] ∧ u.shape = [n, 1, 1] := by
    intro n x hx
    simp [GpfqInput.windows, chunk_eq 1 1 n (by decide) [1] x hx, unfoldNd, padZeros, symPads, padPairs, zip4, convSize]
  obtain ⟨ua, a1, a2⟩ := hw 1 a ha
  obtain ⟨ub, b1, b2⟩ := hw 1 b hb
  obtain ⟨uc, c1, c2⟩ := hw 2 c hc
  obtain ⟨ud, d1, d2⟩ := hw 2 d hd
  have hr : GpfqInput.randIndices 1 1 1 draw = [0] := by
    simp [GpfqInput.randIndices, GpfqInput.drawSize, List.range_succ, Nat.mod_one]
  have h1 : GpfqInput.selected [0] 1 = some [0] := by decide
  have h2 : GpfqInput.selected [0] 2 = some [0] := by decide
  simp [GpfqInput.run, GpfqInput.update, a1, a2, b1, b2, c1, c2, d1, d2, hr, h1, h2, windowRow]

/-- C120 is false of the code for `p = 1`: indices are drawn with replacement, so that a window may be used several times and others not at all. -/
theorem C120_drawn_with_replacement : ∃ draw : ℕ → ℕ → ℕ, GpfqInput.randIndices 1 1 3 draw = [0, 0, 0] := by
  refine ⟨fun _ _ => 0, ?_⟩
  simp [GpfqInput.randIndices, GpfqInput.drawSize, List.range_succ]

theorem linearRows_eq {n : ℕ} (hn : 0 < n) (x : NdTensor ℝ) (hr : x.shape.length = 2 ∨ x.shape.length = 3) (hl : x.shape.getLastD 0 = n) :
    ∃ rows, GpfqInput.linearRows x = some rows ∧
      rows.map (fun r => (List.range n).map r) = (indices x.shape.dropLast).map fun idx => (List.range n).map fun i => x.data (idx ++ [i]) := by
  rcases hr with hr | hr
  · obtain ⟨b, hx⟩ : ∃ b, x.shape = [b, n] := by
      match hx : x.shape, hr with
      | [b, m], _ => rw [hx] at hl; exact ⟨b, by rw [← hl]; rfl⟩
    refine ⟨_, by unfold GpfqInput.linearRows; rw [hx]; simp [hn.ne']; rfl, ?_⟩
    rw [hx, ← ChannelScale.map_fromPosition, List.map_map, List.map_map]
    rw [show [b, n].dropLast = [b] from rfl, show [b].prod = b by simp]
    refine List.map_congr_left fun s _ => List.map_congr_left fun i hi => ?_
    have hi := List.mem_range.1 hi
    simp only [fromPosition, List.prod_cons, List.prod_nil, mul_one, Nat.div_one, Nat.mod_one, List.cons_append, List.nil_append]
    rw [mul_comm s n, Nat.mul_add_div hn, Nat.div_eq_of_lt hi, Nat.mul_add_mod, Nat.mod_eq_of_lt hi, Nat.add_zero]
  · obtain ⟨b, t, hx⟩ : ∃ b t, x.shape = [b, t, n] := by
      match hx : x.shape, hr with
      | [b, t, m], _ => rw [hx] at hl; exact ⟨b, t, by rw [← hl]; rfl⟩
    have hp : [b, t, n].prod = n * (b * t) := by simp; ring
    refine ⟨_, by unfold GpfqInput.linearRows; rw [hx]; simp [hn.ne', ← mul_assoc]; rfl, ?_⟩
    rw [hx, ← ChannelScale.map_fromPosition, List.map_map, List.map_map]
    rw [show [b, t, n].dropLast = [b, t] from rfl, show [b, t].prod = b * t by simp]
    refine List.map_congr_left fun s _ => List.map_congr_left fun i hi => ?_
    have hi := List.mem_range.1 hi
    simp only [fromPosition, List.prod_cons, List.prod_nil, mul_one, Nat.div_one, List.cons_append, List.nil_append]
    have e1 : (s * n + i) / (t * n) = s / t := by
      rw [mul_comm t n, ← Nat.div_div_eq_div_mul, mul_comm s n, Nat.mul_add_div hn, Nat.div_eq_of_lt hi, Nat.add_zero]
    have e2 : (s * n + i) % (t * n) = (s % t) * n + i := by
      rw [mul_comm t n, Nat.mod_mul, mul_comm s n, Nat.mul_add_div hn, Nat.div_eq_of_lt hi, Nat.mul_add_mod, Nat.mod_eq_of_lt hi, Nat.add_zero]
      ring
    rw [e1, e2, mul_comm (s % t) n, Nat.mul_add_div hn, Nat.div_eq_of_lt hi, Nat.mul_add_mod, Nat.mod_eq_of_lt hi, Nat.add_zero]

/-- C120, linear layers: all the vectors of the inputs are kept, in order, with and without quantisation. -/
theorem C120_linear (n : ℕ) (hn : 0 < n) (batches : List (NdTensor ℝ × NdTensor ℝ))
    (hr : ∀ b ∈ batches, ∀ x ∈ [b.1, b.2], (x.shape.length = 2 ∨ x.shape.length = 3) ∧ x.shape.getLastD 0 = n) :
    ∃ q f, GpfqInput.runLinear batches ([], []) = some (q, f) ∧
      q.map (fun r => (List.range n).map r) = batches.flatMap (fun b => (indices b.1.shape.dropLast).map fun idx => (List.range n).map fun i => b.1.data (idx ++ [i])) ∧
      f.map (fun r => (List.range n).map r) = batches.flatMap (fun b => (indices b.2.shape.dropLast).map fun idx => (List.range n).map fun i => b.2.data (idx ++ [i])) := by
  have key : ∀ (bs : List (NdTensor ℝ × NdTensor ℝ)) (q0 f0 : List (ℕ → ℝ)), (∀ b ∈ bs, ∀ x ∈ [b.1, b.2], (x.shape.length = 2 ∨ x.shape.length = 3) ∧ x.shape.getLastD 0 = n) →
      ∃ q f, GpfqInput.runLinear bs (q0, f0) = some (q0 ++ q, f0 ++ f) ∧
      q.map (fun r => (List.range n).map r) = bs.flatMap (fun b => (indices b.1.shape.dropLast).map fun idx => (List.range n).map fun i => b.1.data (idx ++ [i])) ∧
      f.map (fun r => (List.range n).map r) = bs.flatMap (fun b => (indices b.2.shape.dropLast).map fun idx => (List.range n).map fun i => b.2.data (idx ++ [i])) := by
    intro bs
    induction bs with
    | nil => exact fun q0 f0 _ => ⟨[], [], by simp [GpfqInput.runLinear], rfl, rfl⟩
    | cons b bs ih =>
      intro q0 f0 h
      have hb := h b (List.mem_cons_self ..)
      obtain ⟨r1, a1, a2⟩ := linearRows_eq hn b.1 (hb b.1 (by simp)).1 (hb b.1 (by simp)).2
      obtain ⟨r2, b1, b2⟩ := linearRows_eq hn b.2 (hb b.2 (by simp)).1 (hb b.2 (by simp)).2
      obtain ⟨q, f, c1, c2, c3⟩ := ih (q0 ++ r1) (f0 ++ r2) fun b' hb' => h b' (List.mem_cons_of_mem _ hb')
      refine ⟨r1 ++ q, r2 ++ f, ?_, ?_, ?_⟩
      · obtain ⟨x, y⟩ := b
        simp only [GpfqInput.runLinear]
        rw [a1, Option.bind_some, b1, Option.bind_some, c1, List.append_assoc, List.append_assoc]
      · rw [List.map_append, a2, c2, List.flatMap_cons]
      · rw [List.map_append, b2, c3, List.flatMap_cons]
  obtain ⟨q, f, h1, h2, h3⟩ := key batches [] [] hr
  exact ⟨q, f, by simpa using h1, h2, h3⟩

example := C120_linear 4 (by decide) [(twoWindows, twoWindows), (⟨[5, 4], fun _ => 1⟩, ⟨[5, 4], fun _ => 2⟩)] (by
  intro b hb x hx
  simp only [List.mem_cons, List.not_mem_nil, or_false] at hb hx
  rcases hb with rfl | rfl <;> rcases hx with rfl | rfl <;> simp [twoWindows])

/-- C120 is false of the code for the inputs of linear layers with four axes: the vectors are as long as the sum of the last two axes. Here two vectors of two numbers are put
into one of four, three vectors of which are left. -/
theorem C120_linear_four_axes : ∃ x : NdTensor ℝ, x.shape = [1, 3, 2, 2] ∧ ∃ r rest, GpfqInput.linearRows x = some (r :: rest) ∧ rest.length = 2 ∧ r 2 = x.data [0, 0, 1, 0] ∧ r 2 ≠ r 0 := by
  refine ⟨⟨[1, 3, 2, 2], fun idx => idx.getD 2 0⟩, rfl, _, _, rfl, rfl, ?_, ?_⟩
  all_goals simp [fromPosition]

end Brevitas.Props
