import Verif.Lemmas.GptqInput
import Verif.Model.GpfqV2
import Verif.Spec.PairDistance

/-!
# Outputs of a layer as scalar products with the collected rows, for two inputs
-/

namespace Brevitas

namespace GptqInput

open NdTensor QuantConv

/-- The scalar product of the first `n` entries. -/
def dot (n : ℕ) (d r : ℕ → ℝ) : ℝ := ((List.range n).map fun i => d i * r i).sum

theorem gptqRows_list {fn : LayerFn} {wshape : List ℕ} {x : NdTensor ℝ} {mats : List (NdTensor ℝ)} (h : processed fn wshape x = some mats) (hne : mats ≠ []) (S : ℕ)
    (hs : ∀ t ∈ mats, t.shape = [columnsOf fn wshape, S]) (hlen : mats.length = groupsOf fn) :
    GpfqV2.scaleSize fn wshape x = columnsOf fn wshape ∧ ∃ rows, gptqRows fn wshape x = some (x.shape.getD 0 0, rows) ∧ ∀ g (t : NdTensor ℝ), mats[g]? = some t → ∃ R : ℕ → ℕ → ℝ, rows.getD g [] = (List.range S).map R ∧
      ∀ s, ∀ i < columnsOf fn wshape, R s i = t.data [i, s] := by
  refine ⟨?_, ?_⟩
  · unfold GpfqV2.scaleSize
    rw [h]
    cases mats with
    | nil => exact absurd rfl hne
    | cons t ts => simp [hs t (by simp)]
  unfold gptqRows
  rw [h]
  simp only [Option.bind_some]
  have hm : ((mats.map fun t => t.shape.getD 0 0).head?).getD 0 = columnsOf fn wshape := by
    cases mats with
    | nil => exact absurd rfl hne
    | cons t ts => simp [hs t (by simp)]
  have hsame : ∀ t ∈ mats, t.shape = (mats.map NdTensor.shape).headD [] := by
    intro t ht
    cases mats with
    | nil => simp at ht
    | cons t' ts => rw [hs t ht]; simp [hs t' (by simp)]
  rw [hm, if_pos ⟨hne, hsame, Or.inl hlen, Or.inl rfl⟩]
  refine ⟨_, rfl, ?_⟩
  intro g t ht
  have hg : g < mats.length := by
    by_contra hcon
    rw [List.getElem?_eq_none (by omega)] at ht
    cases ht
  have hidx : (if mats.length = 1 then 0 else g) = g := by
    split_ifs with h1
    · omega
    · rfl
  have hmat : mats.getD g ⟨[], fun _ => 0⟩ = t := by
    rw [List.getD_eq_getElem?_getD, ht]
    rfl
  refine ⟨fun s i => t.data [if columnsOf fn wshape = 1 then 0 else i, s], ?_, ?_⟩
  · rw [List.getD_eq_getElem?_getD, List.getElem?_map, List.getElem?_range (by omega)]
    simp only [Option.map_some, Option.getD_some, hidx, hmat, hs t (List.mem_of_getElem? ht)]
    simp only [List.getD_cons_succ, List.getD_cons_zero]
  · intro s i hi
    by_cases h1 : columnsOf fn wshape = 1
    · obtain rfl : i = 0 := by omega
      simp only [if_pos h1]
    · simp only [if_neg h1]

/-- The squared distance of the outputs for a weight and an input each, by the rows that are collected of the inputs. `row` are the weights of an output channel. -/
def PairOk (fn : LayerFn) (wshape : List ℕ) (out cols : ℕ) (row : NdTensor ℝ → ℕ → ℕ → ℝ) (f : NdTensor ℝ → NdTensor ℝ → Option (NdTensor ℝ)) (w q x xq : NdTensor ℝ) : Prop :=
  ∀ y y', f x w = some y → f xq q = some y' → ∃ S rows rows', gptqRows fn wshape x = some (x.shape.getD 0 0, rows) ∧ gptqRows fn wshape xq = some (x.shape.getD 0 0, rows') ∧
    GpfqV2.scaleSize fn wshape x = cols ∧ GpfqV2.scaleSize fn wshape xq = cols ∧ ∃ R R' : ℕ → ℕ → ℕ → ℝ, (∀ g < groupsOf fn, rows.getD g [] = (List.range S).map (R g) ∧ rows'.getD g [] = (List.range S).map (R' g)) ∧
      distSq y y' = ((List.range out).map fun o => ((List.range S).map fun s =>
        (dot cols (row q o) (R' (o / (out / groupsOf fn)) s) - dot cols (row w o) (R (o / (out / groupsOf fn)) s)) ^ 2).sum).sum

theorem convSum_row (w : NdTensor ℝ) (bias : Option (List ℕ → ℝ)) (stride dilation ks : List ℕ) (pg cg co : ℕ) (o : List ℕ) (read : ℕ → List ℕ → ℝ) :
    convSum w bias stride dilation ks pg cg co o read =
      ((List.range (cg * ks.prod)).map fun i => w.data (co :: fromPosition (cg :: ks) i) *
        read (co / pg * cg + i / ks.prod) (tapPos stride dilation o (fromPosition ks (i % ks.prod)))).sum + (bias.map fun b => b [co]).getD 0 := by
  unfold convSum
  congr 1
  simp only [position_sum ks]
  exact (two_sum cg ks.prod fun a b => w.data (co :: a :: fromPosition ks b) * read (co / pg * cg + a) (tapPos stride dilation o (fromPosition ks b))).symm

/-- The matrices made of one input of a convolution, and the outputs by them. -/
theorem conv_rows (stride padding dilation : List ℕ) (groups : ℕ) (bias : Option (List ℕ → ℝ)) (w x y : NdTensor ℝ) (hy : convPadNd stride padding dilation groups x w bias = some y) :
    ∃ bt ch sp out cg ks sizes rows, x.shape = bt :: ch :: sp ∧ w.shape = out :: cg :: ks ∧ y.shape = bt :: out :: sizes ∧ out % groups = 0 ∧ 0 < groups ∧
      sizes = (zip4 (List.zipWith (fun (n : ℕ) (p : ℕ × ℕ) => p.1 + n + p.2) sp (padPairs (symPads padding)).reverse) ks stride dilation).map (fun a => convSize a.1 a.2.1 a.2.2.1 a.2.2.2) ∧
      GpfqV2.scaleSize (.conv stride padding dilation groups) w.shape x = cg * ks.prod ∧ gptqRows (.conv stride padding dilation groups) w.shape x = some (bt, rows) ∧ ∃ R : ℕ → ℕ → ℕ → ℝ, (∀ g < groups, rows.getD g [] = (List.range (bt * sizes.prod)).map (R g)) ∧
      ∀ n o l, o < out → l < sizes.prod → y.data (n :: o :: fromPosition sizes l) =
        dot (cg * ks.prod) (weightRow w o) (R (o / (out / groups)) (n * sizes.prod + l)) + (bias.map fun b => b [o]).getD 0 := by
  unfold convPadNd at hy
  by_cases hlen : padding.length + 2 = x.shape.length
  swap
  · rw [if_neg hlen] at hy
    cases hy
  rw [if_pos hlen] at hy
  unfold convNd at hy
  obtain ⟨bt, ch, sp, hx⟩ : ∃ bt ch sp, x.shape = bt :: ch :: sp := by
    match hx : x.shape, hlen with
    | bt :: ch :: sp, _ => exact ⟨bt, ch, sp, rfl⟩
  rw [hx] at hlen
  have hpl : padding.length = sp.length := by simpa using hlen
  have hlr : ((padPairs (symPads padding)).reverse).length = sp.length := by rw [List.length_reverse, padPairs_symPads, hpl]
  have hlead : sp.length + 1 + 1 - sp.length = 2 := by omega
  have hps : (padZeros (symPads padding) x).shape = bt :: ch :: List.zipWith (fun n p => p.1 + n + p.2) sp (padPairs (symPads padding)).reverse := by
    unfold padZeros
    simp only [hx, List.length_cons, hlr, hlead]
    rfl
  have hzl : (List.zipWith (fun (n : ℕ) (p : ℕ × ℕ) => p.1 + n + p.2) sp (padPairs (symPads padding)).reverse).length = sp.length := by
    rw [List.length_zipWith, hlr, Nat.min_self]
  obtain ⟨P, hP⟩ : ∃ P, P = padZeros (symPads padding) x := ⟨_, rfl⟩
  rw [← hP] at hy hps
  obtain ⟨psp, hpsp⟩ : ∃ psp, psp = List.zipWith (fun (n : ℕ) (p : ℕ × ℕ) => p.1 + n + p.2) sp (padPairs (symPads padding)).reverse := ⟨_, rfl⟩
  rw [← hpsp] at hps hzl
  rw [hps] at hy
  obtain ⟨out, cg, ks, hws⟩ : ∃ out cg ks, w.shape = out :: cg :: ks := by
    match hws : w.shape with
    | out :: cg :: ks => exact ⟨out, cg, ks, rfl⟩
    | [] => rw [hws] at hy; cases hy
    | [a] => rw [hws] at hy; cases hy
  rw [hws] at hy ⊢
  dsimp only at hy
  by_cases hcond : psp.length = ks.length ∧ stride.length = ks.length ∧ dilation.length = ks.length ∧ 0 < groups ∧ ch = cg * groups ∧ out % groups = 0 ∧
      (∀ s ∈ stride, 0 < s) ∧ ∀ a ∈ zip4 psp ks stride dilation, (a.2.1 - 1) * a.2.2.2 + 1 ≤ a.1
  swap
  · rw [if_neg hcond] at hy
    cases hy
  rw [if_pos hcond] at hy
  obtain ⟨c1, c2, c3, c4, rfl, c6, c7, c8⟩ := hcond
  cases hy
  obtain ⟨sizes, hsz⟩ : ∃ sizes, sizes = (zip4 psp ks stride dilation).map fun a => convSize a.1 a.2.1 a.2.2.1 a.2.2.2 := ⟨_, rfl⟩
  rw [← hsz]
  obtain ⟨mat, hmat⟩ : ∃ mat : ℕ → NdTensor ℝ, mat = fun g => ⟨[cg * ks.prod, bt * sizes.prod], fun idx =>
      P.data (idx.getD 1 0 / sizes.prod :: (g * cg + idx.getD 0 0 / ks.prod) ::
        tapPos stride dilation (fromPosition sizes (idx.getD 1 0 % sizes.prod)) (fromPosition ks (idx.getD 0 0 % ks.prod)))⟩ := ⟨_, rfl⟩
  have hproc : processed (.conv stride padding dilation groups) (out :: cg :: ks) x = some ((List.range groups).map mat) := by
    unfold processed
    simp only
    rw [chunk_eq groups cg bt c4 sp x hx]
    rw [List.mapM_map]
    apply mapM_some
    intro g _
    obtain ⟨q1, q2⟩ := padZeros_chunk padding bt (cg * groups) cg sp hpl x hx (g * cg)
    rw [← hP] at q1 q2
    unfold unfoldNd
    simp only [Function.comp_apply, List.drop_succ_cons, List.drop_zero]
    rw [q1, hps]
    simp only [List.drop_succ_cons, List.drop_zero]
    rw [if_pos ⟨hpl, by omega, by omega, by omega, c7, c8⟩]
    simp only [Option.map_some, Option.some.injEq, hmat, transposeFlatten, ← hsz, q2]
    simp
  obtain ⟨r0, rows, r1, r2⟩ := gptqRows_list hproc (by simp; omega) (bt * sizes.prod) (by
    intro t ht
    obtain ⟨g, -, rfl⟩ := List.mem_map.1 ht
    rw [hmat]
    rfl) (by simp [groupsOf])
  have r3 : ∀ g, ∃ R : ℕ → ℕ → ℝ, g < groups → rows.getD g [] = (List.range (bt * sizes.prod)).map R ∧ ∀ s, ∀ i < cg * ks.prod, R s i = (mat g).data [i, s] := by
    intro g
    by_cases hg : g < groups
    · obtain ⟨R, h1, h2⟩ := r2 g (mat g) (by rw [List.getElem?_map, List.getElem?_range hg]; rfl)
      exact ⟨R, fun _ => ⟨h1, by simpa [columnsOf] using h2⟩⟩
    · exact ⟨fun _ _ => 0, fun h => absurd h hg⟩
  choose R hR using r3
  refine ⟨bt, cg * groups, sp, out, cg, ks, sizes, rows, hx, rfl, rfl, c6, c4, by rw [hsz, hpsp], by rw [r0]; simp [columnsOf], by rw [r1, hx]; rfl, R, fun g hg => (hR g hg).1, ?_⟩
  intro n o l ho hl
  have hg : o / (out / groups) < groups := by
    have := group_lt (cg := 1) (ci := 0) ho c6 (by omega)
    simpa using this
  dsimp only
  rw [convSum_row]
  congr 1
  unfold dot
  congr 1
  apply List.map_congr_left
  intro i hi
  rw [List.mem_range] at hi
  rw [(hR _ hg).2 _ i hi, hmat]
  simp only [weightRow, hws, List.drop_succ_cons, List.drop_zero, List.getD_cons_zero, List.getD_cons_succ]
  have hl0 : 0 < sizes.prod := by omega
  rw [Nat.mul_comm n, Nat.mul_add_div hl0, Nat.div_eq_of_lt hl, Nat.mul_add_mod, Nat.mod_eq_of_lt hl, Nat.add_zero]

theorem pair_sum (bt out L : ℕ) (sizes : List ℕ) (hL : sizes.prod = L) (A B : ℕ → ℕ → ℝ) (y y' : NdTensor ℝ) (hs : y.shape = bt :: out :: sizes) (b : ℕ → ℝ)
    (hy : ∀ n o l, o < out → l < L → y.data (n :: o :: fromPosition sizes l) = A o (n * L + l) + b o)
    (hy' : ∀ n o l, o < out → l < L → y'.data (n :: o :: fromPosition sizes l) = B o (n * L + l) + b o) :
    distSq y y' = ((List.range out).map fun o => ((List.range (bt * L)).map fun s => (B o s - A o s) ^ 2).sum).sum := by
  unfold distSq
  rw [hs, indices_sum]
  simp only [indices_sum out]
  rw [list_swap]
  congr 1
  apply List.map_congr_left
  intro o ho
  rw [List.mem_range] at ho
  have h : ((List.range (bt * L)).map fun s => (B o s - A o s) ^ 2).sum = ((List.range (bt * L)).map fun s => (B o (s / L * L + s % L) - A o (s / L * L + s % L)) ^ 2).sum := by
    congr 1
    apply List.map_congr_left
    intro s _
    rw [Nat.div_add_mod']
  rw [h, two_sum bt L fun n l => (B o (n * L + l) - A o (n * L + l)) ^ 2]
  congr 1
  apply List.map_congr_left
  intro n _
  rw [position_sum, hL]
  congr 1
  apply List.map_congr_left
  intro l hl
  rw [List.mem_range] at hl
  rw [hy n o l ho hl, hy' n o l ho hl, add_sub_add_right_eq_sub]

theorem conv_pair (stride padding dilation : List ℕ) (groups : ℕ) (bias : Option (List ℕ → ℝ)) (w q x xq : NdTensor ℝ) (hw : q.shape = w.shape) (hx : xq.shape = x.shape) :
    PairOk (.conv stride padding dilation groups) w.shape (w.shape.getD 0 0) (w.shape.drop 1).prod weightRow (fun x w => convPadNd stride padding dilation groups x w bias) w q x xq := by
  intro y y' hy hy'
  obtain ⟨bt, ch, sp, out, cg, ks, sizes, rows, a1, a2, a3, a4, a5, a6, a0, a7, R, a8, a9⟩ := conv_rows stride padding dilation groups bias w x y hy
  obtain ⟨bt', ch', sp', out', cg', ks', sizes', rows', b1, b2, b3, b4, b5, b6, b0, b7, R', b8, b9⟩ := conv_rows stride padding dilation groups bias q xq y' hy'
  rw [hx, a1] at b1
  cases b1
  rw [hw, a2] at b2
  cases b2
  obtain rfl : sizes' = sizes := by rw [a6, b6]
  rw [hw] at b0 b7
  refine ⟨bt * sizes'.prod, rows, rows', by rw [a7, a1]; rfl, by rw [b7, a1]; rfl, by rw [a0, a2]; simp, by rw [b0, a2]; simp, R, R', fun g hg => ⟨a8 g hg, b8 g hg⟩, ?_⟩
  simp only [a2, groupsOf, List.getD_cons_zero, List.drop_succ_cons, List.drop_zero, List.prod_cons]
  exact pair_sum bt out _ sizes' rfl _ _ y y' a3 (fun o => (bias.map fun b => b [o]).getD 0) a9 b9

theorem linear_rows (bias : Option (List ℕ → ℝ)) (w x y : NdTensor ℝ) (hcols : 0 < (w.shape.drop 1).prod) (hr : x.shape.length = 2 ∨ x.shape.length = 3) (hy : linearNd x w bias = some y) :
    ∃ out n rows R, w.shape = [out, n] ∧ x.shape.getLastD 0 = n ∧ y.shape = x.shape.dropLast ++ [out] ∧
      GpfqV2.scaleSize .linear w.shape x = n ∧ gptqRows .linear w.shape x = some (x.shape.getD 0 0, rows) ∧ rows.getD 0 [] = (List.range x.shape.dropLast.prod).map R ∧
      ∀ s < x.shape.dropLast.prod, ∀ o, y.data (fromPosition x.shape.dropLast s ++ [o]) = dot n (weightRow w o) (R s) + (bias.map fun b => b [o]).getD 0 := by
  unfold linearNd at hy
  obtain ⟨out, n, hws⟩ : ∃ out n, w.shape = [out, n] := by
    match hws : w.shape with
    | [out, n] => exact ⟨out, n, rfl⟩
    | [] => rw [hws] at hy; cases hy
    | [a] => rw [hws] at hy; cases hy
    | a :: b :: c :: l => rw [hws] at hy; cases hy
  rw [hws] at hy hcols ⊢
  dsimp only at hy
  have hn : 0 < n := by simpa using hcols
  by_cases hcond : x.shape ≠ [] ∧ x.shape.getLastD 0 = n
  swap
  · rw [if_neg hcond] at hy
    cases hy
  rw [if_pos hcond] at hy
  obtain ⟨-, hlast⟩ := hcond
  cases hy
  have hcl : columnsOf .linear [out, n] = n := by simp [columnsOf]
  have fin : ∀ (D : List ℕ) (R : ℕ → ℕ → ℝ), x.shape.dropLast = D → (∀ s < D.prod, ∀ i < n, R s i = x.data (fromPosition D s ++ [i])) → ∀ s < D.prod, ∀ o,
      ((List.range n).map fun i => w.data [(fromPosition D s ++ [o]).getLastD 0, i] * x.data ((fromPosition D s ++ [o]).dropLast ++ [i])).sum +
        (bias.map fun b => b [(fromPosition D s ++ [o]).getLastD 0]).getD 0 = dot n (weightRow w o) (R s) + (bias.map fun b => b [o]).getD 0 := by
    intro D R _ h s hs o
    have e1 : (fromPosition D s ++ [o]).getLastD 0 = o := by simp [List.getLastD_eq_getLast?]
    rw [e1]
    congr 1
    unfold dot
    congr 1
    apply List.map_congr_left
    intro i hi
    rw [List.mem_range] at hi
    rw [h s hs i hi, List.dropLast_concat]
    simp [weightRow, hws, fromPosition]
  rcases hr with hr | hr
  · obtain ⟨b, hx⟩ : ∃ b, x.shape = [b, n] := by
      match hx : x.shape, hr with
      | [b, m], _ => rw [hx] at hlast; exact ⟨b, by rw [← hlast]; rfl⟩
    have hproc : processed .linear [out, n] x = some [⟨[n, b], fun idx => x.data [idx.getD 1 0, idx.getD 0 0]⟩] := by
      unfold processed
      simp [hx]
    obtain ⟨r0, rows, r1, r2⟩ := gptqRows_list hproc (by simp) b (by simp [hcl]) rfl
    obtain ⟨R, r3, r4⟩ := r2 0 _ rfl
    rw [hcl] at r4
    have hD : x.shape.dropLast = [b] := by rw [hx]; rfl
    refine ⟨out, n, rows, R, rfl, hlast, rfl, by rw [r0, hcl], r1, by rw [r3, hD]; simp, ?_⟩
    rw [hD]
    refine fin [b] R hD ?_
    intro s hs i hi
    rw [r4 s i hi]
    simp [fromPosition]
  · obtain ⟨b, t, hx⟩ : ∃ b t, x.shape = [b, t, n] := by
      match hx : x.shape, hr with
      | [b, t, m], _ => rw [hx] at hlast; exact ⟨b, t, by rw [← hlast]; rfl⟩
    have hprod : [b, t, n].prod = b * t * n := by simp [Nat.mul_assoc]
    have hwidth : linearRowWidth [b, t, n] = some n := (Props.C39_rows_partial b t n hn).2
    have hq : b * t * n / n = b * t := Nat.mul_div_cancel _ hn
    have hproc : processed .linear [out, n] x = some [⟨[n, b * t], fun idx => x.data (fromPosition [b, t, n] (_root_.Brevitas.Spec.ravel [b * t, n] [idx.getD 1 0, idx.getD 0 0]))⟩] := by
      unfold processed
      have hq' : b * (t * n) / n = b * t := by rw [← Nat.mul_assoc]; exact hq
      simp only [hx, List.length_cons, List.length_nil, hwidth, hprod, hq, reshape]
      simp [hq', Nat.mul_assoc]
    obtain ⟨r0, rows, r1, r2⟩ := gptqRows_list hproc (by simp) (b * t) (by simp [hcl]) rfl
    obtain ⟨R, r3, r4⟩ := r2 0 _ rfl
    rw [hcl] at r4
    have hD : x.shape.dropLast = [b, t] := by rw [hx]; rfl
    refine ⟨out, n, rows, R, rfl, hlast, rfl, by rw [r0, hcl], r1, by rw [r3, hD]; simp, ?_⟩
    rw [hD]
    refine fin [b, t] R hD ?_
    intro s hs k hk
    rw [r4 s k hk]
    have h1 : (s * n + k) / n = s := by rw [Nat.mul_comm, Nat.mul_add_div hn, Nat.div_eq_of_lt hk]; rfl
    have h2 : (s * n + k) % n = k := by rw [Nat.mul_comm, Nat.mul_add_mod, Nat.mod_eq_of_lt hk]
    have h3 : fromPosition [b, t, n] (s * n + k) = [s / t, s % t, k] := by
      simp only [fromPosition, List.prod_cons, List.prod_nil, Nat.mul_one, Nat.div_one]
      rw [Nat.mul_comm t n, ← Nat.div_div_eq_div_mul, h1, Nat.mod_mul_right_div_self, h1, Nat.mod_mul_right_mod, h2]
    have h4 : _root_.Brevitas.Spec.ravel [b * t, n] [s, k] = s * n + k := by simp [_root_.Brevitas.Spec.ravel]
    simp only [List.getD_cons_zero, List.getD_cons_succ]
    rw [h4, h3]
    simp [fromPosition]

theorem indices_append_sum (s : List ℕ) (out : ℕ) (f : List ℕ → ℝ) :
    ((indices (s ++ [out])).map f).sum = ((List.range s.prod).map fun p => ((List.range out).map fun o => f (fromPosition s p ++ [o])).sum).sum := by
  rw [← position_sum s fun is => ((List.range out).map fun o => f (is ++ [o])).sum]
  induction s generalizing f with
  | nil => simp [indices, flatMap_sum]
  | cons d s ih =>
    rw [List.cons_append, indices_sum, indices_sum]
    congr 1
    apply List.map_congr_left
    intro i _
    rw [ih fun is => f (i :: is)]
    rfl

theorem linear_pair (bias : Option (List ℕ → ℝ)) (w q x xq : NdTensor ℝ) (hw : q.shape = w.shape) (hx : xq.shape = x.shape) (hcols : 0 < (w.shape.drop 1).prod)
    (hr : x.shape.length = 2 ∨ x.shape.length = 3) :
    PairOk .linear w.shape (w.shape.getD 0 0) (w.shape.drop 1).prod weightRow (fun x w => linearNd x w bias) w q x xq := by
  intro y y' hy hy'
  obtain ⟨out, n, rows, R, a1, a2, a3, a0, a4, a5, a6⟩ := linear_rows bias w x y hcols hr hy
  obtain ⟨out', n', rows', R', b1, b2, b3, b0, b4, b5, b6⟩ := linear_rows bias q xq y' (by rw [hw]; exact hcols) (by rw [hx]; exact hr) hy'
  rw [hw, a1] at b1
  cases b1
  rw [hx] at b3 b4 b5 b6
  rw [hw] at b0 b4
  refine ⟨x.shape.dropLast.prod, rows, rows', a4, b4, by rw [a0, a1]; simp, by rw [b0, a1]; simp, fun _ => R, fun _ => R', ?_, ?_⟩
  · intro g hg
    obtain rfl : g = 0 := by simpa [groupsOf] using hg
    exact ⟨a5, b5⟩
  · unfold distSq
    rw [a3, indices_append_sum, list_swap]
    simp only [a1, List.getD_cons_zero, List.drop_succ_cons, List.drop_zero, List.prod_cons, List.prod_nil, Nat.mul_one]
    congr 1
    apply List.map_congr_left
    intro o _
    congr 1
    apply List.map_congr_left
    intro s hs
    rw [List.mem_range] at hs
    rw [a6 s hs, b6 s hs, add_sub_add_right_eq_sub]

end GptqInput

end Brevitas
