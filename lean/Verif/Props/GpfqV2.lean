import Verif.Lemmas.GpfqV2

/-!
# C121: what the matrices of GPFQv2 say about the outputs of the layer
-/

namespace Brevitas.Props

open Brevitas NdTensor QuantConv GptqInput

/-- The rows that are made of an input for group `g`. -/
private def rowsOf (fn : LayerFn) (wshape : List ℕ) (g : ℕ) (x : NdTensor ℝ) : List (ℕ → ℝ) := ((gptqRows fn wshape x).map fun b => b.2.getD g []).getD []

/-- The pairs of rows of all batches. -/
private def pairsOf (fn : LayerFn) (wshape : List ℕ) (g : ℕ) (batches : List (NdTensor ℝ × NdTensor ℝ)) : List ((ℕ → ℝ) × (ℕ → ℝ)) :=
  batches.flatMap fun b => (rowsOf fn wshape g b.1).zip (rowsOf fn wshape g b.2)

private theorem map_sum_sub {α : Type*} {l : List α} {f g : α → ℝ} : (l.map fun a => f a - g a).sum = (l.map f).sum - (l.map g).sum := by
  induction l with
  | nil => simp
  | cons a l ih => simp only [List.map_cons, List.sum_cons, ih]; ring

private theorem gptqRows_length {fn : LayerFn} {wshape : List ℕ} {x : NdTensor ℝ} {b : ℕ × List (List (ℕ → ℝ))} (h : gptqRows fn wshape x = some b) : b.2.length = groupsOf fn := by
  unfold gptqRows at h
  obtain ⟨mats, -, h⟩ := Option.bind_eq_some_iff.1 h
  dsimp only at h
  split at h
  · cases h
    simp
  · cases h

private theorem scaled_getD (n : ℕ) (rows : List (List (ℕ → ℝ))) (g : ℕ) :
    (GpfqV2.scaled n rows).getD g [] = (rows.getD g []).map fun r => fun i => Real.sqrt (2 / (n : ℝ)) * r i := by
  unfold GpfqV2.scaled
  rw [List.getD_eq_getElem?_getD, List.getD_eq_getElem?_getD, List.getElem?_map]
  cases rows[g]? <;> rfl

private theorem run_pairs {fn : LayerFn} {wshape : List ℕ} {out cols : ℕ} (hcols : 0 < cols) {row : NdTensor ℝ → ℕ → ℕ → ℝ} {f : NdTensor ℝ → NdTensor ℝ → Option (NdTensor ℝ)}
    {w : NdTensor ℝ} : ∀ (batches : List (NdTensor ℝ × NdTensor ℝ)) (q : NdTensor ℝ) (ds : List ℝ) (st : GpfqV2.State), st.pending = none →
      (∀ b ∈ batches, PairOk fn wshape out cols row f w q b.2 b.1) → batches.mapM (pairDistance f w q) = some ds →
      ∃ st', GpfqV2.run fn wshape batches st = some st' ∧ st'.pending = none ∧
        (∀ g i j, st'.H g i j = st.H g i j + 2 / cols * ((pairsOf fn wshape g batches).map fun p => p.1 i * p.1 j).sum) ∧
        ∀ g i j, st'.G g i j = st.G g i j + 2 / cols * ((pairsOf fn wshape g batches).map fun p => p.1 i * p.2 j).sum := by
  intro batches
  induction batches with
  | nil => exact fun q ds st h0 _ _ => ⟨st, rfl, h0, by simp [pairsOf], by simp [pairsOf]⟩
  | cons b bs ih =>
    intro q ds st h0 hok hds
    obtain ⟨xq, xf⟩ := b
    rw [List.mapM_cons] at hds
    obtain ⟨d, hd, hds⟩ := Option.bind_eq_some_iff.1 hds
    obtain ⟨ds', hds', hds⟩ := Option.bind_eq_some_iff.1 hds
    unfold pairDistance at hd
    obtain ⟨y, hy, hd⟩ := Option.bind_eq_some_iff.1 hd
    obtain ⟨y', hy', -⟩ := Option.map_eq_some_iff.1 hd
    obtain ⟨S, rows, rows', p1, p2, p3, p4, R, R', p5, -⟩ := hok (xq, xf) (by simp) y y' hy hy'
    have hl : rows.length = groupsOf fn := gptqRows_length p1
    have hl' : rows'.length = groupsOf fn := gptqRows_length p2
    have hc : cols ≠ 0 := by omega
    have hsq : Real.sqrt (2 / (cols : ℝ)) * Real.sqrt (2 / (cols : ℝ)) = 2 / cols := Real.mul_self_sqrt (by positivity)
    have hlen : ∀ g, (rows'.getD g []).length = (rows.getD g []).length := by
      intro g
      by_cases hg : g < groupsOf fn
      · rw [(p5 g hg).1, (p5 g hg).2]
        simp
      · rw [List.getD_eq_default _ _ (by omega), List.getD_eq_default _ _ (by omega)]
    have hmap : (GpfqV2.scaled cols rows').map List.length = (GpfqV2.scaled cols rows).map List.length := by
      unfold GpfqV2.scaled
      rw [List.map_map, List.map_map]
      apply List.ext_getElem
      · simp [hl, hl']
      · intro i h1 h2
        have := hlen i
        simp only [List.length_map] at h1 h2
        rw [List.getD_eq_getElem _ _ h1, List.getD_eq_getElem _ _ h2] at this
        simp [this]
    dsimp only at p1 p2 p3 p4
    have u1 : GpfqV2.update fn wshape true xq st = some { st with H := fun g i j => st.H g i j + (((GpfqV2.scaled cols rows').getD g []).map fun r => r i * r j).sum, pending := some (GpfqV2.scaled cols rows') } := by
      unfold GpfqV2.update
      rw [p2]
      simp [p4, hc, h0]
    have u2 : GpfqV2.update fn wshape false xf { st with H := fun g i j => st.H g i j + (((GpfqV2.scaled cols rows').getD g []).map fun r => r i * r j).sum, pending := some (GpfqV2.scaled cols rows') } =
        some { H := fun g i j => st.H g i j + (((GpfqV2.scaled cols rows').getD g []).map fun r => r i * r j).sum,
               G := fun g i j => st.G g i j + (List.zipWith (fun a r => a i * r j) ((GpfqV2.scaled cols rows').getD g []) ((GpfqV2.scaled cols rows).getD g [])).sum, pending := none } := by
      unfold GpfqV2.update
      rw [p1]
      simp only [Option.bind_some, p3, if_neg hc, Bool.false_eq_true, if_false]
      rw [if_pos hmap]
    obtain ⟨st', s1, s2, s3, s4⟩ := ih q ds' ⟨fun g i j => st.H g i j + (((GpfqV2.scaled cols rows').getD g []).map fun r => r i * r j).sum, fun g i j => st.G g i j + (List.zipWith (fun a r => a i * r j) ((GpfqV2.scaled cols rows').getD g []) ((GpfqV2.scaled cols rows).getD g [])).sum, none⟩ rfl (fun b hb => hok b (List.mem_cons_of_mem _ hb)) hds'
    refine ⟨st', ?_, s2, ?_, ?_⟩
    · unfold GpfqV2.run
      rw [u1, Option.bind_some, u2, Option.bind_some]
      exact s1
    · intro g i j
      rw [s3]
      simp only [pairsOf, List.flatMap_cons, List.map_append, List.sum_append, scaled_getD, List.map_map]
      have e : (((rowsOf fn wshape g xq).zip (rowsOf fn wshape g xf)).map fun p => p.1 i * p.1 j) = (rows'.getD g []).map fun r => r i * r j := by
        have e1 : rowsOf fn wshape g xq = rows'.getD g [] := by unfold rowsOf; rw [p2]; rfl
        have e2 : rowsOf fn wshape g xf = rows.getD g [] := by unfold rowsOf; rw [p1]; rfl
        rw [e1, e2]
        rw [show (fun p : (ℕ → ℝ) × (ℕ → ℝ) => p.1 i * p.1 j) = (fun r : ℕ → ℝ => r i * r j) ∘ Prod.fst from rfl, ← List.map_map, List.map_fst_zip (hlen g).le]
      rw [e, mul_add, add_assoc]
      congr 2
      rw [← List.sum_map_mul_left]
      congr 1
      apply List.map_congr_left
      intro r _
      simp only [Function.comp_apply]
      calc _ = Real.sqrt (2 / (cols : ℝ)) * Real.sqrt (2 / (cols : ℝ)) * (r i * r j) := by ring
        _ = _ := by rw [hsq]
    · intro g i j
      rw [s4]
      simp only [pairsOf, List.flatMap_cons, List.map_append, List.sum_append, scaled_getD]
      have e1 : rowsOf fn wshape g xq = rows'.getD g [] := by unfold rowsOf; rw [p2]; rfl
      have e2 : rowsOf fn wshape g xf = rows.getD g [] := by unfold rowsOf; rw [p1]; rfl
      rw [e1, e2, mul_add, add_assoc]
      congr 2
      rw [← List.sum_map_mul_left, List.zipWith_map, List.zip_eq_zipWith, List.map_zipWith]
      congr 2
      funext a r
      calc _ = Real.sqrt (2 / (cols : ℝ)) * Real.sqrt (2 / (cols : ℝ)) * (a i * r j) := by ring
        _ = _ := by rw [hsq]

private theorem distance_pairs {fn : LayerFn} {wshape : List ℕ} {out cols : ℕ} (hdiv : out % groupsOf fn = 0) {row : NdTensor ℝ → ℕ → ℕ → ℝ} {f : NdTensor ℝ → NdTensor ℝ → Option (NdTensor ℝ)}
    {w q : NdTensor ℝ} : ∀ (batches : List (NdTensor ℝ × NdTensor ℝ)) (ds : List ℝ), (∀ b ∈ batches, PairOk fn wshape out cols row f w q b.2 b.1) →
      batches.mapM (pairDistance f w q) = some ds →
      ds.sum = ((List.range out).map fun o => ((pairsOf fn wshape (o / (out / groupsOf fn)) batches).map fun p => (dot cols (row q o) p.1 - dot cols (row w o) p.2) ^ 2).sum).sum := by
  intro batches
  induction batches with
  | nil =>
    intro ds _ h
    simp at h
    subst h
    simp [pairsOf]
  | cons b bs ih =>
    intro ds hok hds
    obtain ⟨xq, xf⟩ := b
    rw [List.mapM_cons] at hds
    obtain ⟨d, hd, hds⟩ := Option.bind_eq_some_iff.1 hds
    obtain ⟨ds', hds', hds⟩ := Option.bind_eq_some_iff.1 hds
    cases hds
    unfold pairDistance at hd
    obtain ⟨y, hy, hd⟩ := Option.bind_eq_some_iff.1 hd
    obtain ⟨y', hy', rfl⟩ := Option.map_eq_some_iff.1 hd
    obtain ⟨S, rows, rows', p1, p2, -, -, R, R', p5, p6⟩ := hok (xq, xf) (by simp) y y' hy hy'
    rw [List.sum_cons, ih ds' (fun b hb => hok b (List.mem_cons_of_mem _ hb)) hds', p6, ← List.sum_map_add]
    congr 1
    apply List.map_congr_left
    intro o ho
    rw [List.mem_range] at ho
    have hg : o / (out / groupsOf fn) < groupsOf fn := by
      have := group_lt (cg := 1) (ci := 0) ho hdiv (by omega)
      simpa using this
    have e1 : rowsOf fn wshape (o / (out / groupsOf fn)) xq = rows'.getD (o / (out / groupsOf fn)) [] := by unfold rowsOf; rw [p2]; rfl
    have e2 : rowsOf fn wshape (o / (out / groupsOf fn)) xf = rows.getD (o / (out / groupsOf fn)) [] := by unfold rowsOf; rw [p1]; rfl
    simp only [pairsOf, List.flatMap_cons, List.map_append, List.sum_append]
    rw [e1, e2, (p5 _ hg).1, (p5 _ hg).2, List.zip_map', List.map_map]
    rfl

private theorem bilin_sum (n : ℕ) (G : ℕ → ℕ → ℝ) (c : ℝ) (W : List ((ℕ → ℝ) × (ℕ → ℝ))) (u v : (ℕ → ℝ) × (ℕ → ℝ) → ℕ → ℝ) (hG : ∀ i j, G i j = c * (W.map fun p => u p i * v p j).sum)
    (a b : ℕ → ℝ) : bilinForm n G a b = c * (W.map fun p => dot n a (u p) * dot n b (v p)).sum := by
  have h1 : bilinForm n G a b = ((List.range n).map fun i => ((List.range n).map fun j => c * (W.map fun p => a i * u p i * (b j * v p j)).sum).sum).sum := by
    unfold bilinForm
    congr 1
    apply List.map_congr_left
    intro i _
    congr 1
    apply List.map_congr_left
    intro j _
    rw [hG, ← List.sum_map_mul_left, ← List.sum_map_mul_left, ← List.sum_map_mul_left, ← List.sum_map_mul_right]
    congr 1
    apply List.map_congr_left
    intro r _
    ring
  rw [h1]
  simp only [List.sum_map_mul_left]
  congr 1
  have h2 : ((List.range n).map fun i => ((List.range n).map fun j => (W.map fun p => a i * u p i * (b j * v p j)).sum).sum).sum
      = ((List.range n).map fun i => (W.map fun p => ((List.range n).map fun j => a i * u p i * (b j * v p j)).sum).sum).sum := by
    congr 1
    apply List.map_congr_left
    intro i _
    exact list_swap _ _ _
  rw [h2, list_swap]
  congr 1
  apply List.map_congr_left
  intro r _
  unfold dot
  rw [← List.sum_map_mul_right]
  congr 1
  apply List.map_congr_left
  intro i _
  rw [List.sum_map_mul_left]

private theorem v2_of_pairs {fn : LayerFn} {wshape : List ℕ} {out cols : ℕ} (hcols : 0 < cols) (hdiv : out % groupsOf fn = 0) {row : NdTensor ℝ → ℕ → ℕ → ℝ}
    {f : NdTensor ℝ → NdTensor ℝ → Option (NdTensor ℝ)} {w q q' : NdTensor ℝ} (batches : List (NdTensor ℝ × NdTensor ℝ)) (ds ds' : List ℝ)
    (hok : ∀ b ∈ batches, PairOk fn wshape out cols row f w q b.2 b.1) (hok' : ∀ b ∈ batches, PairOk fn wshape out cols row f w q' b.2 b.1)
    (hds : batches.mapM (pairDistance f w q) = some ds) (hds' : batches.mapM (pairDistance f w q') = some ds') :
    ∃ st, GpfqV2.run fn wshape batches {} = some st ∧ ds'.sum - ds.sum = (cols : ℝ) / 2 * ((List.range out).map fun o =>
      quadForm cols (st.H (o / (out / groupsOf fn))) (row q' o) - quadForm cols (st.H (o / (out / groupsOf fn))) (row q o) -
        2 * bilinForm cols (st.G (o / (out / groupsOf fn))) (fun i => row q' o i - row q o i) (row w o)).sum := by
  obtain ⟨st, h1, -, h2, h3⟩ := run_pairs hcols batches q ds {} rfl hok hds
  refine ⟨st, h1, ?_⟩
  rw [distance_pairs hdiv batches ds hok hds, distance_pairs hdiv batches ds' hok' hds', ← List.sum_map_mul_left, ← map_sum_sub]
  congr 1
  apply List.map_congr_left
  intro o _
  set W := pairsOf fn wshape (o / (out / groupsOf fn)) batches
  have hH : ∀ a, quadForm cols (st.H (o / (out / groupsOf fn))) a = 2 / cols * (W.map fun p => dot cols a p.1 * dot cols a p.1).sum :=
    fun a => bilin_sum cols _ _ W Prod.fst Prod.fst (fun i j => by rw [h2]; simp [W]) a a
  have hG : ∀ a, bilinForm cols (st.G (o / (out / groupsOf fn))) a (row w o) = 2 / cols * (W.map fun p => dot cols a p.1 * dot cols (row w o) p.2).sum :=
    fun a => bilin_sum cols _ _ W Prod.fst Prod.snd (fun i j => by rw [h3]; simp [W]) a _
  rw [hH, hH, hG]
  have hc : (cols : ℝ) ≠ 0 := by exact_mod_cast hcols.ne'
  have hsub : ∀ p : (ℕ → ℝ) × (ℕ → ℝ), dot cols (fun i => row q' o i - row q o i) p.1 = dot cols (row q' o) p.1 - dot cols (row q o) p.1 := by
    intro p
    unfold dot
    rw [← map_sum_sub]
    congr 1
    apply List.map_congr_left
    intro i _
    ring
  have hfin : (W.map fun p => (dot cols (row q' o) p.1 - dot cols (row w o) p.2) ^ 2).sum - (W.map fun p => (dot cols (row q o) p.1 - dot cols (row w o) p.2) ^ 2).sum =
      (W.map fun p => dot cols (row q' o) p.1 * dot cols (row q' o) p.1).sum - (W.map fun p => dot cols (row q o) p.1 * dot cols (row q o) p.1).sum -
        2 * (W.map fun p => dot cols (fun i => row q' o i - row q o i) p.1 * dot cols (row w o) p.2).sum := by
    rw [← List.sum_map_mul_left, ← map_sum_sub, ← map_sum_sub, ← map_sum_sub]
    congr 1
    apply List.map_congr_left
    intro p _
    rw [hsub]
    ring
  rw [hfin]
  field_simp

/-- C121, linear layers. -/
theorem C121_linear (bias : Option (List ℕ → ℝ)) (w q q' : NdTensor ℝ) (hq : q.shape = w.shape) (hq' : q'.shape = w.shape) (hcols : 0 < (w.shape.drop 1).prod)
    (batches : List (NdTensor ℝ × NdTensor ℝ)) (hsame : ∀ b ∈ batches, b.1.shape = b.2.shape) (hrank : ∀ b ∈ batches, b.2.shape.length = 2 ∨ b.2.shape.length = 3) (ds ds' : List ℝ)
    (hds : batches.mapM (pairDistance (fun x w => linearNd x w bias) w q) = some ds) (hds' : batches.mapM (pairDistance (fun x w => linearNd x w bias) w q') = some ds') :
    ∃ st, GpfqV2.run .linear w.shape batches {} = some st ∧ ds'.sum - ds.sum = ((w.shape.drop 1).prod : ℝ) / 2 * ((List.range (w.shape.getD 0 0)).map fun o =>
      quadForm (w.shape.drop 1).prod (st.H 0) (weightRow q' o) - quadForm (w.shape.drop 1).prod (st.H 0) (weightRow q o) -
        2 * bilinForm (w.shape.drop 1).prod (st.G 0) (fun i => weightRow q' o i - weightRow q o i) (weightRow w o)).sum := by
  obtain ⟨st, h1, h2⟩ := v2_of_pairs (fn := .linear) (wshape := w.shape) (out := w.shape.getD 0 0) hcols (Nat.mod_one _) (row := weightRow) batches ds ds'
    (fun b hb => linear_pair bias w q b.2 b.1 hq (hsame b hb) hcols (hrank b hb)) (fun b hb => linear_pair bias w q' b.2 b.1 hq' (hsame b hb) hcols (hrank b hb)) hds hds'
  refine ⟨st, h1, ?_⟩
  rw [h2]
  congr 2
  apply List.map_congr_left
  intro o ho
  rw [List.mem_range] at ho
  simp only [groupsOf, Nat.div_one, Nat.div_eq_of_lt ho]

/-- C121, convolutions. -/
theorem C121_convolution (stride padding dilation : List ℕ) (groups : ℕ) (bias : Option (List ℕ → ℝ)) (w q q' : NdTensor ℝ) (hq : q.shape = w.shape) (hq' : q'.shape = w.shape)
    (hcols : 0 < (w.shape.drop 1).prod) (hdiv : w.shape.getD 0 0 % groups = 0) (batches : List (NdTensor ℝ × NdTensor ℝ)) (hsame : ∀ b ∈ batches, b.1.shape = b.2.shape) (ds ds' : List ℝ)
    (hds : batches.mapM (pairDistance (fun x w => convPadNd stride padding dilation groups x w bias) w q) = some ds)
    (hds' : batches.mapM (pairDistance (fun x w => convPadNd stride padding dilation groups x w bias) w q') = some ds') :
    ∃ st, GpfqV2.run (.conv stride padding dilation groups) w.shape batches {} = some st ∧
      ds'.sum - ds.sum = ((w.shape.drop 1).prod : ℝ) / 2 * ((List.range (w.shape.getD 0 0)).map fun o =>
        quadForm (w.shape.drop 1).prod (st.H (o / (w.shape.getD 0 0 / groups))) (weightRow q' o) - quadForm (w.shape.drop 1).prod (st.H (o / (w.shape.getD 0 0 / groups))) (weightRow q o) -
          2 * bilinForm (w.shape.drop 1).prod (st.G (o / (w.shape.getD 0 0 / groups))) (fun i => weightRow q' o i - weightRow q o i) (weightRow w o)).sum :=
  v2_of_pairs (fn := .conv stride padding dilation groups) hcols hdiv batches ds ds'
    (fun b hb => conv_pair stride padding dilation groups bias w q b.2 b.1 hq (hsame b hb)) (fun b hb => conv_pair stride padding dilation groups bias w q' b.2 b.1 hq' (hsame b hb)) hds hds'

example : ∃ ds ds', ([(⟨[2, 3], fun _ => 1⟩, ⟨[2, 3], fun _ => 2⟩), (⟨[1, 5, 3], fun _ => 1⟩, ⟨[1, 5, 3], fun _ => 2⟩)] : List (NdTensor ℝ × NdTensor ℝ)).mapM
      (pairDistance (fun x w => linearNd x w none) ⟨[2, 3], fun _ => 1⟩ ⟨[2, 3], fun _ => 2⟩) = some ds ∧
    ([(⟨[2, 3], fun _ => 1⟩, ⟨[2, 3], fun _ => 2⟩), (⟨[1, 5, 3], fun _ => 1⟩, ⟨[1, 5, 3], fun _ => 2⟩)] : List (NdTensor ℝ × NdTensor ℝ)).mapM
      (pairDistance (fun x w => linearNd x w none) ⟨[2, 3], fun _ => 1⟩ ⟨[2, 3], fun _ => 3⟩) = some ds' := ⟨_, _, rfl, rfl⟩

example : ∃ ds, ([(⟨[2, 4, 5], fun _ => 1⟩, ⟨[2, 4, 5], fun _ => 2⟩), (⟨[1, 4, 5], fun _ => 1⟩, ⟨[1, 4, 5], fun _ => 2⟩)] : List (NdTensor ℝ × NdTensor ℝ)).mapM
      (pairDistance (fun x w => convPadNd [2] [1] [1] 2 x w none) ⟨[6, 2, 3], fun _ => 1⟩ ⟨[6, 2, 3], fun _ => 2⟩) = some ds := ⟨_, rfl⟩

/-- A pass without quantisation that no pass with quantisation came before raises. -/
theorem C121_float_first_raises (fn : LayerFn) (wshape : List ℕ) (x : NdTensor ℝ) (st : GpfqV2.State) (h : st.pending = none) : GpfqV2.update fn wshape false x st = none := by
  unfold GpfqV2.update
  cases gptqRows fn wshape x with
  | none => rfl
  | some b =>
    simp only [Option.bind_some, h, Option.bind_none]
    split <;> rfl

end Brevitas.Props
