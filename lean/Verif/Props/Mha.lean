import Verif.Lemmas.Mha
import Mathlib.Tactic.NormNum
import Mathlib.Tactic.Positivity

/-!
# C78: quantised multi-head attention computes multi-head attention
-/

namespace Brevitas.Mha

open Finset NdTensor

/-- What is returned as weights: nothing unless asked for; the mean over heads, or those of each head. -/
def WeightsAre (l : Layout) (needWeights average : Bool) (B H T S : ℕ) (W : ℕ → ℕ → ℕ → ℕ → ℝ) (w : Option (NdTensor ℝ)) : Prop :=
  (needWeights = false → w = none) ∧
  (needWeights = true → average = true → ∃ y, w = some y ∧ y.shape = l.weightIndex B [T, S] ∧
    ∀ n < B, ∀ t < T, ∀ s < S, y.data (l.weightIndex n [t, s]) = (∑ h ∈ range H, W n h t s) / H) ∧
  (needWeights = true → average = false → ∃ y, w = some y ∧ y.shape = l.weightIndex B [H, T, S] ∧
    ∀ n < B, ∀ h < H, ∀ t < T, ∀ s < S, y.data (l.weightIndex n [h, t, s]) = W n h t s)

private theorem weightsAre_batched {l : Layout} (hl : l ≠ .single) {B H T S : ℕ} {W : ℕ → ℕ → ℕ → ℕ → ℝ} {y : NdTensor ℝ}
    (hs : y.shape = [B, H, T, S]) (hd : ∀ n < B, ∀ h < H, ∀ t < T, ∀ s < S, y.data [n, h, t, s] = W n h t s) (needWeights average : Bool) :
    WeightsAre l needWeights average B H T S W (if needWeights then some (
          let z : NdTensor ℝ := if average then
            ⟨[B, T, S], fun idx => (∑ h ∈ range H, y.data [idx.getD 0 0, h, idx.getD 1 0, idx.getD 2 0]) / H⟩ else y
          if true then z else squeeze 0 z) else none) := by
  have hw : ∀ n rest, l.weightIndex n rest = n :: rest := by
    intro n rest
    cases l <;> first | rfl | exact absurd rfl hl
  refine ⟨?_, ?_, ?_⟩
  · rintro rfl; rfl
  · rintro rfl rfl
    refine ⟨_, rfl, (hw _ _).symm, ?_⟩
    intro n hn t ht s hs'
    rw [hw]
    show (∑ h ∈ range H, y.data [n, h, t, s]) / (H : ℝ) = _
    congr 1
    exact Finset.sum_congr rfl fun h hh => hd n hn h (Finset.mem_range.mp hh) t ht s hs'
  · rintro rfl rfl
    refine ⟨y, rfl, by rw [hs, hw], ?_⟩
    intro n hn h hh t ht s hs'
    rw [hw]
    exact hd n hn h hh t ht s hs'

private theorem weightsAre_single {H T S : ℕ} {W : ℕ → ℕ → ℕ → ℕ → ℝ} {y : NdTensor ℝ}
    (hs : y.shape = [1, H, T, S]) (hd : ∀ n < 1, ∀ h < H, ∀ t < T, ∀ s < S, y.data [n, h, t, s] = W n h t s) (needWeights average : Bool) :
    WeightsAre .single needWeights average 1 H T S W (if needWeights then some (
          let z : NdTensor ℝ := if average then
            ⟨[1, T, S], fun idx => (∑ h ∈ range H, y.data [idx.getD 0 0, h, idx.getD 1 0, idx.getD 2 0]) / H⟩ else y
          if false then z else squeeze 0 z) else none) := by
  refine ⟨?_, ?_, ?_⟩
  · rintro rfl; rfl
  · rintro rfl rfl
    refine ⟨_, rfl, rfl, ?_⟩
    intro n hn t ht s hs'
    obtain rfl : n = 0 := by omega
    show (∑ h ∈ range H, y.data [0, h, t, s]) / (H : ℝ) = _
    congr 1
    exact Finset.sum_congr rfl fun h hh => hd 0 hn h (Finset.mem_range.mp hh) t ht s hs'
  · rintro rfl rfl
    have hsq : squeeze 0 y = ⟨[H, T, S], fun idx => y.data (idx.insertIdx 0 0)⟩ := by
      unfold squeeze
      rw [hs]
      rfl
    refine ⟨squeeze 0 y, rfl, by rw [hsq]; rfl, ?_⟩
    intro n hn h hh t ht s hs'
    obtain rfl : n = 0 := by omega
    rw [hsq]
    exact hd 0 hn h hh t ht s hs'

private theorem mha_batched {M : Module} {T S B d : ℕ} (hM : M.Fits d) {query key value : NdTensor ℝ} (hq : query.shape = [T, B, M.embedDim])
    (hk : key.shape = [S, B, d]) (hv : value.shape = [S, B, d]) {kpm attn : Option Mask} (hp : ∀ m, kpm = some m → m.shape = [B, S])
    (ha : ∀ m, attn = some m → m.shape = [T, S] ∨ m.shape = [B * M.numHeads, T, S]) (same needWeights average : Bool) :
    M.multiHeadAttention same needWeights average query key value kpm attn =
      M.body same true needWeights average query key value kpm attn := by
  obtain ⟨hH, hdvd, -, -⟩ := hM
  unfold Module.multiHeadAttention
  have hc : shapeCheck M.numHeads query key value kpm attn = some true := by
    unfold shapeCheck
    rw [if_pos (by rw [hq]; rfl), if_pos]
    refine ⟨by rw [hk]; rfl, by rw [hv]; rfl, ?_, ?_⟩
    · intro m hm
      rw [hp m hm]; rfl
    · intro m hm
      rcases ha m hm with h | h <;> rw [h] <;> simp
  rw [hc, Option.bind_some]
  have hpp : prepPad true kpm = some kpm := by
    cases kpm <;> rfl
  simp only [hpp, Option.bind_some, if_true]
  rw [if_neg (by rw [hq]; simp), if_neg (by rw [Nat.div_mul_cancel hdvd]; simp; omega), if_neg (by rw [hk, hv]; simp)]

private theorem mha_single {M : Module} {T S d : ℕ} (hM : M.Fits d) {query key value : NdTensor ℝ} (hq : query.shape = [T, M.embedDim])
    (hk : key.shape = [S, d]) (hv : value.shape = [S, d]) {kpm attn : Option Mask} (hp : ∀ m, kpm = some m → m.shape = [S])
    (ha : ∀ m, attn = some m → m.shape = [T, S] ∨ m.shape = [M.numHeads, T, S]) (same needWeights average : Bool) :
    ∃ kpm', PadIs kpm' 1 S (padValue .single kpm) ∧ ((∀ m, kpm = some m → ∃ u, m = .bool u) → ∀ m, kpm' = some m → ∃ u, m = .bool u) ∧
    M.multiHeadAttention same needWeights average query key value kpm attn =
      M.body same false needWeights average (unsqueeze 1 query) (unsqueeze 1 key) (unsqueeze 1 value) kpm' attn := by
  obtain ⟨hH, hdvd, -, -⟩ := hM
  have hc : shapeCheck M.numHeads query key value kpm attn = some false := by
    unfold shapeCheck
    rw [if_neg (by rw [hq]; simp), if_pos (by rw [hq]; rfl), if_pos]
    refine ⟨by rw [hk]; rfl, by rw [hv]; rfl, ?_, ?_⟩
    · intro m hm
      rw [hp m hm]; rfl
    · intro m hm
      rcases ha m hm with h | h
      · left; rw [h]; rfl
      · right; rw [h, hq, hk]; exact ⟨rfl, rfl⟩
  have hpp : ∃ kpm', prepPad false kpm = some kpm' ∧ PadIs kpm' 1 S (padValue .single kpm) ∧
      ((∀ m, kpm = some m → ∃ u, m = .bool u) → ∀ m, kpm' = some m → ∃ u, m = .bool u) := by
    cases kpm with
    | none => exact ⟨none, rfl, fun _ _ _ _ => rfl, id⟩
    | some m =>
      have hs := hp m rfl
      cases m with
      | bool u =>
        refine ⟨some (.bool (unsqueeze 0 u)), rfl, ⟨?_, fun _ _ _ _ => rfl⟩, ?_⟩
        · show 1 :: u.shape = _
          rw [show u.shape = [S] from hs]
        · rintro - m hm
          exact ⟨_, (Option.some.inj hm).symm⟩
      | float u =>
        refine ⟨some (.float (unsqueeze 0 u)), rfl, ⟨?_, fun _ _ _ _ => rfl⟩, ?_⟩
        · show 1 :: u.shape = _
          rw [show u.shape = [S] from hs]
        · intro h
          obtain ⟨v, hv⟩ := h _ rfl
          cases hv
  obtain ⟨kpm', hk', hpad, hbool⟩ := hpp
  refine ⟨kpm', hpad, hbool, ?_⟩
  unfold Module.multiHeadAttention
  rw [hc, Option.bind_some]
  simp only [hk', Option.bind_some, Bool.false_eq_true, if_false]
  rw [if_neg (by simp [unsqueeze, hq]), if_neg (by rw [Nat.div_mul_cancel hdvd]; simp; omega), if_neg (by simp [unsqueeze, hk, hv])]

private theorem is_self (x : NdTensor ℝ) {a b c : ℕ} (h : x.shape = [a, b, c]) : Is x a b c (fun i j k => x.data [i, j, k]) :=
  ⟨h, fun _ _ _ _ _ _ => rfl⟩

private theorem is_unsqueeze (x : NdTensor ℝ) {a c : ℕ} (h : x.shape = [a, c]) : Is (unsqueeze 1 x) a 1 c (fun i _ k => x.data [i, k]) :=
  ⟨by simp [unsqueeze, h], fun _ _ _ _ _ _ => rfl⟩

private theorem accepts_of {p : InProj} {same : Bool} {q k v q' k' v' : NdTensor ℝ} (h : p.Accepts same q k v) (hk : k = q → k' = q')
    (hv : v = q → v' = q') : p.Accepts same q' k' v' := by
  cases p with
  | packed _ => exact ⟨h.1, hk h.2.1, hv h.2.2⟩
  | separate _ _ _ => trivial

/-- **C78.**  For every module whose projections fit together, every layout of the inputs (positions first, batch first, or a single
sequence), every length and batch size, every boolean or float attention mask (one for all heads or one per head) and every
boolean padding mask (or a float one without attention mask), with or without the learned position and the position of zeros, and whatever the
element-wise quantisers, the module returns multi-head attention and its weights.

Partial: a float padding mask given with an attention mask is not added (see `C78_float_padding_is_boolean`, `C78_two_float_masks_raise`), and
keys and values must have the same number of features (see `C78_different_features_raise`). -/
theorem C78_attention_partial (M : Module) (l : Layout) {T S B d : ℕ} (hM : M.Fits d) (hl : l.Of M B)
    {query key value : NdTensor ℝ} (hq : query.shape = l.shape T B M.embedDim) (hk : key.shape = l.shape S B d)
    (hv : value.shape = l.shape S B d) (same : Bool) (hsame : M.inProj.Accepts same query key value)
    {kpm attn : Option Mask} (hp : ∀ m, kpm = some m → m.shape = l.padShape B S)
    (ha : ∀ m, attn = some m → m.shape = [T, S] ∨ m.shape = [B * M.numHeads, T, S])
    (hc : attn = none ∨ ∀ m, kpm = some m → ∃ u, m = .bool u) (needWeights average : Bool) :
    ∃ out w S', M.forward same needWeights average query key value kpm attn = some (out, w) ∧
      (∀ n, (M.keyValues l key value S n).len = S') ∧
      out.shape = l.shape T B M.outProj.outFeatures ∧
      (∀ t < T, ∀ n < B, ∀ e < M.outProj.outFeatures, out.data (l.index t n e) = M.output l query key value kpm attn S n t e) ∧
      WeightsAre l needWeights average B M.numHeads T S' (M.weights l query key value kpm attn S) w := by
  have hpad : ∀ {k : Option Mask}, (∀ m, k = some m → m.shape = [B, S]) → PadIs k B S (padValue .seqFirst k) := by
    intro k hk
    cases k with
    | none => exact fun _ _ _ _ => rfl
    | some m => exact ⟨hk m rfl, fun _ _ _ _ => rfl⟩
  cases l with
  | seqFirst =>
    have hbf : M.batchFirst = false := hl
    obtain ⟨o, w, S', hb, hlen, ho, y, hys, hyd, rfl⟩ := body_spec (batched := true) (needWeights := needWeights) (average := average) hM
      (Q := fun n t e => query.data [t, n, e]) (K := fun n t e => key.data [t, n, e]) (V := fun n t e => value.data [t, n, e])
      (is_self query hq) (is_self key hk) (is_self value hv) hsame ha (hpad hp) hc
    refine ⟨o, _, S', ?_, hlen, ho.1, ?_, weightsAre_batched (by simp) hys hyd needWeights average⟩
    · unfold Module.forward
      rw [if_neg (by rw [hbf]; simp), mha_batched hM hq hk hv hp ha, hb, if_pos rfl]
    · intro t ht n hn e he
      exact ho.2 t ht n hn e he
  | batchFirst =>
    have hbf : M.batchFirst = true := hl
    obtain ⟨q', hq', hqi⟩ := (is_self query hq).transpose10
    obtain ⟨k', hk', hki⟩ := (is_self key hk).transpose10
    obtain ⟨v', hv', hvi⟩ := (is_self value hv).transpose10
    have hsame' : M.inProj.Accepts same q' k' v' := accepts_of hsame
      (fun h => by subst h; rw [hq'] at hk'; exact (Option.some.inj hk').symm)
      (fun h => by subst h; rw [hq'] at hv'; exact (Option.some.inj hv').symm)
    obtain ⟨o, w, S', hb, hlen, ho, y, hys, hyd, rfl⟩ := body_spec (batched := true) (needWeights := needWeights) (average := average) hM
      (Q := fun n t e => query.data [n, t, e]) (K := fun n t e => key.data [n, t, e]) (V := fun n t e => value.data [n, t, e])
      hqi hki hvi hsame' ha (hpad hp) hc
    obtain ⟨o', ho', hoi⟩ := ho.transpose10
    refine ⟨o', _, S', ?_, hlen, hoi.1, ?_, weightsAre_batched (by simp) hys hyd needWeights average⟩
    · unfold Module.forward
      rw [if_pos (by rw [hbf, hq]; exact ⟨rfl, rfl⟩)]
      simp only [hq', hk', hv', Option.bind_some]
      rw [mha_batched hM hqi.1 hki.1 hvi.1 hp ha, hb]
      simp only [if_true, Option.bind_some, ho', Option.map_some]
    · intro t ht n hn e he
      exact hoi.2 n hn t ht e he
  | single =>
    obtain rfl : B = 1 := hl
    obtain ⟨kpm', hpad', hbool, hmha⟩ := mha_single hM hq hk hv hp (by simpa using ha) same needWeights average
    have hsame' : M.inProj.Accepts same (unsqueeze 1 query) (unsqueeze 1 key) (unsqueeze 1 value) :=
      accepts_of hsame (congrArg _) (congrArg _)
    obtain ⟨o, w, S', hb, hlen, ho, y, hys, hyd, rfl⟩ := body_spec (batched := false) (needWeights := needWeights) (average := average) hM
      (Q := fun _ t e => query.data [t, e]) (K := fun _ t e => key.data [t, e]) (V := fun _ t e => value.data [t, e])
      (is_unsqueeze query hq) (is_unsqueeze key hk) (is_unsqueeze value hv) hsame' ha hpad' (hc.imp id hbool)
    have hsq : squeeze 1 o = ⟨[T, M.outProj.outFeatures], fun idx => o.data (idx.insertIdx 1 0)⟩ := by
      unfold squeeze
      rw [ho.1]
      rfl
    refine ⟨squeeze 1 o, _, S', ?_, hlen, by rw [hsq]; rfl, ?_, weightsAre_single hys hyd needWeights average⟩
    · unfold Module.forward
      rw [if_neg (by rw [hq]; simp [Layout.shape]), hmha, hb]
      rfl
    · intro t ht n hn e he
      obtain rfl : n = 0 := by omega
      rw [hsq]
      exact ho.2 t ht 0 hn e he

/-- Two heads of one feature each, a packed projection, the learned position and the position of zeros: two sequences of three positions, batch
first, with a boolean mask per head and a boolean padding mask. -/
noncomputable example : ∃ out w S', (⟨2, 2, .packed ⟨2, 6, id, fun o i => o + i, fun _ => 1, id⟩, ⟨2, 2, id, fun o i => o * i, fun _ => 0, id⟩,
      some (fun _ => 1, fun _ => 2), true, true, {}⟩ : Module).forward true true true ⟨[2, 3, 2], fun idx => idx.sum⟩ ⟨[2, 3, 2], fun idx => idx.sum⟩
      ⟨[2, 3, 2], fun idx => idx.sum⟩ (some (.bool ⟨[2, 3], fun idx => idx.getD 1 0 == 2⟩))
      (some (.bool ⟨[4, 3, 3], fun idx => decide (idx.getD 1 0 < idx.getD 2 0)⟩)) = some (out, w) ∧ S' = 5 ∧ out.shape = [2, 3, 2] := by
  obtain ⟨out, w, S', h1, h2, h3, -⟩ := C78_attention_partial
    (⟨2, 2, .packed ⟨2, 6, id, fun o i => o + i, fun _ => 1, id⟩, ⟨2, 2, id, fun o i => o * i, fun _ => 0, id⟩,
      some (fun _ => 1, fun _ => 2), true, true, {}⟩ : Module) .batchFirst (T := 3) (S := 3) (B := 2) (d := 2)
    ⟨by decide, by decide, ⟨rfl, rfl, rfl⟩, rfl⟩ rfl (query := ⟨[2, 3, 2], fun idx => idx.sum⟩) (key := ⟨[2, 3, 2], fun idx => idx.sum⟩)
    (value := ⟨[2, 3, 2], fun idx => idx.sum⟩) rfl rfl rfl true ⟨rfl, rfl, rfl⟩
    (kpm := some (.bool ⟨[2, 3], fun idx => idx.getD 1 0 == 2⟩)) (attn := some (.bool ⟨[4, 3, 3], fun idx => decide (idx.getD 1 0 < idx.getD 2 0)⟩))
    (by rintro m hm; rw [← Option.some.inj hm]; rfl) (by rintro m hm; rw [← Option.some.inj hm]; right; rfl)
    (Or.inr (by rintro m hm; exact ⟨_, (Option.some.inj hm).symm⟩)) true true
  exact ⟨out, w, S', h1, (h2 0).symm, h3⟩

/-- A float padding mask as the boolean mask of its elements that are not zero. -/
noncomputable def boolOf (k : NdTensor (WithBot ℝ)) : NdTensor Bool :=
  open Classical in ⟨k.shape, fun idx => decide (k.data idx ≠ 0)⟩

private theorem bind_congr2 {A B : Type} {x : Option A} {f g : A → Option B} (h : ∀ a, f a = g a) : x.bind f = x.bind g := by
  cases x with
  | none => rfl
  | some a => exact h a

private theorem boolOf_pad (k : NdTensor (WithBot ℝ)) : Mha.padColumn false (boolOf k) = boolOf (Mha.padColumn 0 k) := by
  unfold boolOf Mha.padColumn
  simp only [NdTensor.mk.injEq, true_and]
  funext idx
  by_cases h : idx.getD (k.shape.length - 1) 0 < k.shape.getD (k.shape.length - 1) 0
  · rw [if_pos h]; simp only [if_pos h]
  · rw [if_neg h]; simp only [if_neg h]; simp

private theorem finalMask_boolOf (B H S : ℕ) (a : NdTensor Bool) (k : NdTensor (WithBot ℝ)) :
    finalMask B H S (some (.bool a)) (some (.float k)) = finalMask B H S (some (.bool a)) (some (.bool (boolOf k))) := by
  have key : ∀ u, (padMask B H S (.float k) = some u → ∃ v, u = .float v ∧ padMask B H S (.bool (boolOf k)) = some (.bool (boolOf v))) := by
    intro u hu
    unfold padMask at hu ⊢
    by_cases hs : k.shape = [B, S]
    · rw [if_pos (show (Mask.float k).shape = [B, S] from hs)] at hu
      rw [if_pos (show (Mask.bool (boolOf k)).shape = [B, S] from hs)]
      obtain ⟨v, hv, rfl⟩ := Option.map_eq_some_iff.mp hu
      refine ⟨v, rfl, ?_⟩
      unfold reshape at hv ⊢
      simp only [Mask.map]
      dsimp only at hv
      by_cases h1 : [B, 1, 1, S].prod = k.shape.prod
      · rw [if_pos h1, Option.bind_some] at hv
        rw [if_pos (show [B, 1, 1, S].prod = (boolOf k).shape.prod from h1), Option.bind_some]
        unfold expand at hv ⊢
        by_cases h2 : bcShape [B, 1, 1, S] [B, H, 1, S] = some [B, H, 1, S]
        · rw [if_pos h2, Option.bind_some] at hv
          rw [if_pos h2, Option.bind_some]
          by_cases h3 : [B * H, 1, S].prod = [B, H, 1, S].prod
          · rw [if_pos h3] at hv
            rw [if_pos h3]
            rw [← Option.some.inj hv]
            rfl
          · rw [if_neg h3] at hv; cases hv
        · rw [if_neg h2] at hv; cases hv
      · rw [if_neg h1] at hv; cases hv
    · rw [if_neg (show ¬ (Mask.float k).shape = [B, S] from hs)] at hu
      cases hu
  have keyNone : padMask B H S (.float k) = none → padMask B H S (.bool (boolOf k)) = none := by
    intro hu
    unfold padMask at hu ⊢
    by_cases hs : k.shape = [B, S]
    · exfalso
      rw [if_pos (show (Mask.float k).shape = [B, S] from hs)] at hu
      obtain ⟨v, hv, -⟩ := padTensor (H := H) hs
      simp only [Mask.map] at hu
      rw [hv] at hu
      cases hu
    · exact if_neg hs
  unfold finalMask
  cases hp : padMask B H S (.float k) with
  | none => simp only [hp, keyNone hp, Option.bind_none]
  | some u =>
    obtain ⟨v, rfl, hv⟩ := key u hp
    simp only [hp, hv, Option.bind_some]
    rfl

private theorem body_boolOf (M : Module) (same batched needWeights average : Bool) (query key value : NdTensor ℝ) (a : NdTensor Bool)
    (k : NdTensor (WithBot ℝ)) :
    M.body same batched needWeights average query key value (some (.float k)) (some (.bool a)) =
      M.body same batched needWeights average query key value (some (.bool (boolOf k))) (some (.bool a)) := by
  unfold Module.body
  refine bind_congr2 fun p => ?_
  have hprep : ∀ m, prepAttn (query.shape.getD 1 0) M.numHeads (query.shape.getD 0 0) (key.shape.getD 0 0) (some (.bool a)) = some m →
      ∃ a', m = some (.bool a') := by
    intro m hm
    unfold prepAttn prepMask at hm
    obtain ⟨m', hm', rfl⟩ := Option.map_eq_some_iff.mp hm
    by_cases h2 : (Mask.bool a).shape.length = 2
    · rw [if_pos h2] at hm'
      by_cases h3 : (Mask.bool a).shape = [query.shape.getD 0 0, key.shape.getD 0 0]
      · rw [if_pos h3] at hm'
        exact ⟨_, congrArg some (Option.some.inj hm').symm⟩
      · rw [if_neg h3] at hm'; cases hm'
    · rw [if_neg h2] at hm'
      by_cases h3 : (Mask.bool a).shape.length = 3
      · rw [if_pos h3] at hm'
        by_cases h4 : (Mask.bool a).shape = [query.shape.getD 1 0 * M.numHeads, query.shape.getD 0 0, key.shape.getD 0 0]
        · rw [if_pos h4] at hm'
          exact ⟨_, congrArg some (Option.some.inj hm').symm⟩
        · rw [if_neg h4] at hm'; cases hm'
      · rw [if_neg h3] at hm'; cases hm'
  cases hp : prepAttn (query.shape.getD 1 0) M.numHeads (query.shape.getD 0 0) (key.shape.getD 0 0) (some (.bool a)) with
  | none => rfl
  | some m =>
    obtain ⟨a', rfl⟩ := hprep m hp
    simp only [Option.bind_some]
    -- the learned position
    have hbias : ∀ p2, addBias (query.shape.getD 1 0) M.embedDim M.biasKV p.2.1 p.2.2 (some (.bool a')) (some (.float k)) = some p2 →
        ∃ a2 k2, p2.2.2 = (some (.bool a2), some (.float k2)) ∧
        addBias (query.shape.getD 1 0) M.embedDim M.biasKV p.2.1 p.2.2 (some (.bool a')) (some (.bool (boolOf k))) =
          some (p2.1, p2.2.1, some (.bool a2), some (.bool (boolOf k2))) := by
      intro p2 h
      unfold addBias at h ⊢
      cases hb : M.biasKV with
      | none =>
        simp only [hb] at h
        rw [← Option.some.inj h]
        exact ⟨a', k, rfl, rfl⟩
      | some b =>
        simp only [hb] at h
        obtain ⟨k', hk', h⟩ := Option.bind_eq_some_iff.mp h
        obtain ⟨v', hv', rfl⟩ := Option.map_eq_some_iff.mp h
        refine ⟨_, _, rfl, ?_⟩
        simp only [hk', hv', Option.bind_some, Option.map_some]
        show some (k', v', some (Mask.bool (Mha.padColumn false a')), some (Mask.bool (Mha.padColumn false (boolOf k)))) = _
        rw [boolOf_pad]
    have hbias0 : addBias (query.shape.getD 1 0) M.embedDim M.biasKV p.2.1 p.2.2 (some (.bool a')) (some (.float k)) = none →
        addBias (query.shape.getD 1 0) M.embedDim M.biasKV p.2.1 p.2.2 (some (.bool a')) (some (.bool (boolOf k))) = none := by
      intro h
      unfold addBias at h ⊢
      cases hb : M.biasKV with
      | none => simp only [hb] at h; cases h
      | some b =>
        simp only [hb] at h ⊢
        cases hc : NdTensor.cat 0 [p.2.1, (⟨[1, query.shape.getD 1 0, M.embedDim], fun idx => b.1 (idx.getD 2 0)⟩ : NdTensor ℝ)] with
        | none => rfl
        | some y =>
          rw [hc, Option.bind_some] at h
          rw [Option.bind_some]
          cases hc' : NdTensor.cat 0 [p.2.2, (⟨[1, query.shape.getD 1 0, M.embedDim], fun idx => b.2 (idx.getD 2 0)⟩ : NdTensor ℝ)] with
          | none => rfl
          | some z => rw [hc'] at h; cases h
    cases hb : addBias (query.shape.getD 1 0) M.embedDim M.biasKV p.2.1 p.2.2 (some (.bool a')) (some (.float k)) with
    | none => rw [hbias0 hb]
    | some p2 =>
      obtain ⟨a2, k2, he, hb'⟩ := hbias p2 hb
      obtain ⟨x, y, at2, kp2⟩ := p2
      obtain ⟨rfl, rfl⟩ := Prod.mk.inj he
      rw [hb']
      simp only [Option.bind_some]
      refine bind_congr2 fun q2 => bind_congr2 fun k2' => bind_congr2 fun v2' => ?_
      unfold addZero
      by_cases hz : M.addZeroAttn = true
      · rw [if_pos hz, if_pos hz]
        cases NdTensor.cat 1 [k2', (⟨[query.shape.getD 1 0 * M.numHeads, 1, M.embedDim / M.numHeads], fun _ => 0⟩ : NdTensor ℝ)] with
        | none => rfl
        | some k3 =>
          cases NdTensor.cat 1 [v2', (⟨[query.shape.getD 1 0 * M.numHeads, 1, M.embedDim / M.numHeads], fun _ => 0⟩ : NdTensor ℝ)] with
          | none => rfl
          | some v3 =>
            simp only [Option.bind_some, Option.map_some, Mask.padColumn]
            rw [boolOf_pad, finalMask_boolOf]
      · rw [if_neg hz, if_neg hz]
        simp only [Option.bind_some]
        rw [finalMask_boolOf]

/-- **C78, disagreement.**  With a boolean attention mask, a float padding mask is not added to the scores: for every module and all inputs it
has the effect of a boolean mask, which hides every position where it is not zero. -/
theorem C78_float_padding_is_boolean (M : Module) (same needWeights average : Bool) (query key value : NdTensor ℝ) (a : NdTensor Bool)
    (k : NdTensor (WithBot ℝ)) :
    M.forward same needWeights average query key value (some (.float k)) (some (.bool a)) =
      M.forward same needWeights average query key value (some (.bool (boolOf k))) (some (.bool a)) := by
  have hmha : ∀ query key value : NdTensor ℝ, M.multiHeadAttention same needWeights average query key value (some (.float k)) (some (.bool a)) =
      M.multiHeadAttention same needWeights average query key value (some (.bool (boolOf k))) (some (.bool a)) := by
    intro query key value
    unfold Module.multiHeadAttention
    have hc : shapeCheck M.numHeads query key value (some (.float k)) (some (.bool a)) =
        shapeCheck M.numHeads query key value (some (.bool (boolOf k))) (some (.bool a)) := by
      unfold shapeCheck
      simp only [Option.mem_def, Option.some.injEq, forall_eq']
      rfl
    rw [hc]
    refine bind_congr2 fun b => ?_
    cases b with
    | true =>
      simp only [prepPad, if_true, Option.bind_some]
      rw [body_boolOf]
    | false =>
      have h1 : prepPad false (some (.float k)) = some (some (.float (unsqueeze 0 k))) := rfl
      have h2 : prepPad false (some (.bool (boolOf k))) = some (some (.bool (boolOf (unsqueeze 0 k)))) := rfl
      rw [h1, h2]
      simp only [Option.bind_some]
      rw [body_boolOf]
  unfold Module.forward
  simp only [hmha]

/-- **C78, disagreement.**  A float padding mask with a float attention mask always raises. -/
theorem C78_two_float_masks_raise (M : Module) (same needWeights average : Bool) (query key value : NdTensor ℝ)
    (a k : NdTensor (WithBot ℝ)) : M.forward same needWeights average query key value (some (.float k)) (some (.float a)) = none := by
  have hbody : ∀ (batched : Bool) (query key value : NdTensor ℝ) (k : NdTensor (WithBot ℝ)),
      M.body same batched needWeights average query key value (some (.float k)) (some (.float a)) = none := by
    intro batched query key value k
    unfold Module.body
    rw [Option.bind_eq_none_iff]
    rintro ⟨q, k1, v1⟩ -
    rw [Option.bind_eq_none_iff]
    intro m hm
    have hm' : ∃ a', m = some (.float a') := by
      unfold prepAttn prepMask at hm
      obtain ⟨m', hm', rfl⟩ := Option.map_eq_some_iff.mp hm
      split at hm'
      · split at hm'
        · exact ⟨_, congrArg some (Option.some.inj hm').symm⟩
        · cases hm'
      · split at hm'
        · split at hm'
          · exact ⟨_, congrArg some (Option.some.inj hm').symm⟩
          · cases hm'
        · cases hm'
    obtain ⟨a', rfl⟩ := hm'
    rw [Option.bind_eq_none_iff]
    rintro ⟨k2, v2, at2, kp2⟩ hb
    have hb' : ∃ a2 k2', at2 = some (.float a2) ∧ kp2 = some (.float k2') := by
      unfold addBias at hb
      cases hbi : M.biasKV with
      | none =>
        simp only [hbi, Option.some.injEq, Prod.mk.injEq] at hb
        exact ⟨_, _, hb.2.2.1.symm, hb.2.2.2.symm⟩
      | some b =>
        simp only [hbi] at hb
        obtain ⟨k', -, hb⟩ := Option.bind_eq_some_iff.mp hb
        obtain ⟨v', -, hb⟩ := Option.map_eq_some_iff.mp hb
        simp only [Prod.mk.injEq] at hb
        exact ⟨_, _, hb.2.2.1.symm, hb.2.2.2.symm⟩
    obtain ⟨a2, k2', rfl, rfl⟩ := hb'
    rw [Option.bind_eq_none_iff]
    rintro q3 -
    rw [Option.bind_eq_none_iff]
    rintro k3 -
    rw [Option.bind_eq_none_iff]
    rintro v3 -
    rw [Option.bind_eq_none_iff]
    rintro ⟨k4, v4, at4, kp4⟩ hz
    have hz' : ∃ a4 k4', at4 = some (.float a4) ∧ kp4 = some (.float k4') := by
      unfold addZero at hz
      split at hz
      · obtain ⟨k', -, hz⟩ := Option.bind_eq_some_iff.mp hz
        obtain ⟨v', -, hz⟩ := Option.map_eq_some_iff.mp hz
        simp only [Prod.mk.injEq] at hz
        exact ⟨_, _, hz.2.2.1.symm, hz.2.2.2.symm⟩
      · simp only [Option.some.injEq, Prod.mk.injEq] at hz
        exact ⟨_, _, hz.2.2.1.symm, hz.2.2.2.symm⟩
    obtain ⟨a4, k4', rfl, rfl⟩ := hz'
    have hfin : ∀ S', finalMask (query.shape.getD 1 0) M.numHeads S' (some (.float a4)) (some (.float k4')) = none := by
      intro S'
      unfold finalMask
      simp only
      rw [Option.bind_eq_none_iff]
      intro u hu
      have : ∃ v, u = .float v := by
        unfold padMask at hu
        split at hu
        · obtain ⟨v, -, rfl⟩ := Option.map_eq_some_iff.mp hu
          exact ⟨v, rfl⟩
        · cases hu
      obtain ⟨v, rfl⟩ := this
      rfl
    simp only [hfin, Option.bind_none]
  have hmha : ∀ query key value : NdTensor ℝ, M.multiHeadAttention same needWeights average query key value (some (.float k)) (some (.float a)) = none := by
    intro query key value
    unfold Module.multiHeadAttention
    rw [Option.bind_eq_none_iff]
    intro b _
    cases b with
    | true =>
      simp only [prepPad, if_true, Option.bind_some, hbody]
      simp
    | false =>
      have h1 : prepPad false (some (.float k)) = some (some (.float (unsqueeze 0 k))) := rfl
      simp only [h1, Option.bind_some, hbody]
      simp
  unfold Module.forward
  simp only [hmha, Option.bind_none]
  split
  · simp [Option.bind_eq_none_iff]
  · rfl

/-- **C78, disagreement.**  Keys and values with a different number of features raise, although the module has a projection for each of them: a module
built with `kdim` and `vdim` that differ cannot be called. -/
theorem C78_different_features_raise (M : Module) (same needWeights average : Bool) {query key value : NdTensor ℝ} (hbf : M.batchFirst = false)
    (kpm attn : Option Mask) (hq : query.shape.length = 3) (hkv : key.shape ≠ value.shape) :
    M.forward same needWeights average query key value kpm attn = none := by
  unfold Module.forward
  rw [if_neg (by rw [hbf]; simp)]
  unfold Module.multiHeadAttention
  rw [Option.bind_eq_none_iff]
  intro b hb
  have : b = true := by
    unfold shapeCheck at hb
    rw [if_pos hq] at hb
    split at hb
    · exact (Option.some.inj hb).symm
    · cases hb
  subst this
  rw [Option.bind_eq_none_iff]
  intro kpm' _
  simp only [if_true]
  split
  · rfl
  · split
    · rfl
    · first | rw [if_pos hkv] | rfl

/-- **C78.**  A packed projection refuses three tensors that are not in the same place in memory. -/
theorem C78_packed_cross_attention_raises (M : Module) (needWeights average : Bool) (query key value : NdTensor ℝ) (kpm attn : Option Mask)
    {l : Linear} (hl : M.inProj = .packed l) : M.forward false needWeights average query key value kpm attn = none := by
  have hbody : ∀ (batched : Bool) (query key value : NdTensor ℝ) (kpm : Option Mask),
      M.body false batched needWeights average query key value kpm attn = none := by
    intro batched query key value kpm
    unfold Module.body
    rw [hl]
    rfl
  have hmha : ∀ query key value : NdTensor ℝ, M.multiHeadAttention false needWeights average query key value kpm attn = none := by
    intro query key value
    unfold Module.multiHeadAttention
    simp [Option.bind_eq_none_iff, hbody]
  unfold Module.forward
  simp only [hmha, Option.bind_none]
  split
  · simp [Option.bind_eq_none_iff]
  · rfl

/-- One head of one feature, projections that do nothing. -/
noncomputable def unitModule : Module :=
  { embedDim := 1, numHeads := 1, inProj := .separate ⟨1, 1, id, fun _ _ => 1, fun _ => 0, id⟩ ⟨1, 1, id, fun _ _ => 1, fun _ => 0, id⟩
      ⟨1, 1, id, fun _ _ => 1, fun _ => 0, id⟩, outProj := ⟨1, 1, id, fun _ _ => 1, fun _ => 0, id⟩ }

/-- The same with a packed projection. -/
noncomputable def unitPacked : Module := { unitModule with inProj := .packed ⟨1, 3, id, fun _ _ => 1, fun _ => 0, id⟩ }

/-- A single query 0 and two positions with values 0 and 1. -/
private theorem unit_output {q k v : NdTensor ℝ} {kpm attn : Option Mask} (hq : q.data [0, 0, 0] = 0) (hv0 : v.data [0, 0, 0] = 0)
    (hv1 : v.data [1, 0, 0] = 1) {m0 m1 : WithBot ℝ} (h0 : attnValue attn 1 0 0 0 0 + padValue .seqFirst kpm 0 0 = m0)
    (h1 : attnValue attn 1 0 0 0 1 + padValue .seqFirst kpm 0 1 = m1) :
    unitModule.output .seqFirst q k v kpm attn 2 0 0 0 = Spec.expScore m1 / (Spec.expScore m0 + Spec.expScore m1) := by
  have e0 : unitModule.mask .seqFirst kpm attn 2 0 0 0 0 = m0 := by rw [← h0]; rfl
  have e1 : unitModule.mask .seqFirst kpm attn 2 0 0 0 1 = m1 := by rw [← h1]; rfl
  have hlen : (unitModule.keyValues .seqFirst k v 2 0).len = 2 := rfl
  have hd : unitModule.embedDim / unitModule.numHeads = 1 := rfl
  have hrow : ∀ x : ℕ → ℝ, unitModule.outProj.row x 0 = x 0 := by
    intro x
    simp [Linear.row, unitModule]
  have hw : ∀ s m, unitModule.mask .seqFirst kpm attn 2 0 0 0 s = m →
      Spec.attentionScore unitModule.quant 1 (unitModule.queries .seqFirst q 0) (unitModule.keyValues .seqFirst k v 2 0)
        (unitModule.mask .seqFirst kpm attn 2 0) 0 0 s = m := by
    intro s m hm
    unfold Spec.attentionScore
    rw [hm]
    have : unitModule.queries .seqFirst q 0 0 0 = 0 := by
      simp [Module.queries, Module.queryRow, unitModule, Linear.row, Layout.index, hq]
    have hid : unitModule.quant.q = id := rfl
    simp [this, hid]
  unfold Module.output
  rw [hrow]
  unfold Spec.attentionHeads
  rw [hlen, hd, Finset.sum_range_succ, Finset.sum_range_one]
  have w : ∀ s, Spec.attentionWeight unitModule.quant 1 (unitModule.queries .seqFirst q 0) (unitModule.keyValues .seqFirst k v 2 0)
      (unitModule.mask .seqFirst kpm attn 2 0) 0 0 s =
      Spec.expScore (Spec.attentionScore unitModule.quant 1 (unitModule.queries .seqFirst q 0) (unitModule.keyValues .seqFirst k v 2 0)
        (unitModule.mask .seqFirst kpm attn 2 0) 0 0 s) / (Spec.expScore m0 + Spec.expScore m1) := by
    intro s
    unfold Spec.attentionWeight Spec.softmax
    rw [hlen, Finset.sum_range_succ, Finset.sum_range_one]
    show Spec.expScore (Spec.attentionScore _ _ _ _ _ _ _ s) /
      (Spec.expScore (Spec.attentionScore _ _ _ _ _ _ _ 0) + Spec.expScore (Spec.attentionScore _ _ _ _ _ _ _ 1)) = _
    rw [hw 0 m0 e0, hw 1 m1 e1]
  have v0 : (unitModule.keyValues .seqFirst k v 2 0).value 0 0 = 0 := by
    simp [Module.keyValues, Module.extend, Module.valueRow, unitModule, Linear.row, Layout.index, hv0]
  have v1 : (unitModule.keyValues .seqFirst k v 2 0).value 1 0 = 1 := by
    simp [Module.keyValues, Module.extend, Module.valueRow, unitModule, Linear.row, Layout.index, hv1]
  rw [Nat.zero_div, w, w, v0, v1, hw 1 m1 e1]
  show _ * id 0 + _ * id 1 = _
  simp

/-- The padding mask `[0, -1]`. -/
noncomputable def softMask : NdTensor (WithBot ℝ) := ⟨[1, 2], fun idx => if idx = [0, 1] then ((-1 : ℝ) : WithBot ℝ) else 0⟩

/-- **C78, disagreement.**  With the float padding mask `[0, -1]` and an attention mask that hides nothing, the second position is hidden instead of
losing a factor `e`: the output is 0, not `1 / (e + 1)`. -/
theorem C78_float_padding_not_added : ∃ out w,
    unitModule.forward false false false ⟨[1, 1, 1], fun _ => 0⟩ ⟨[2, 1, 1], fun _ => 0⟩ ⟨[2, 1, 1], fun idx => idx.getD 0 0⟩
      (some (.float softMask)) (some (.bool ⟨[1, 2], fun _ => false⟩)) = some (out, w) ∧ out.data [0, 0, 0] = 0 ∧
    0 < unitModule.output .seqFirst ⟨[1, 1, 1], fun _ => 0⟩ ⟨[2, 1, 1], fun _ => 0⟩ ⟨[2, 1, 1], fun idx => idx.getD 0 0⟩
      (some (.float softMask)) (some (.bool ⟨[1, 2], fun _ => false⟩)) 2 0 0 0 := by
  obtain ⟨out, w, S', h1, -, -, h4, -⟩ := C78_attention_partial unitModule .seqFirst (T := 1) (S := 2) (B := 1) (d := 1)
    ⟨Nat.one_pos, one_dvd _, ⟨rfl, rfl, rfl, rfl, rfl, rfl⟩, rfl⟩ rfl (query := ⟨[1, 1, 1], fun _ => 0⟩) (key := ⟨[2, 1, 1], fun _ => 0⟩)
    (value := ⟨[2, 1, 1], fun idx => idx.getD 0 0⟩) rfl rfl rfl false trivial
    (kpm := some (.bool (boolOf softMask))) (attn := some (.bool ⟨[1, 2], fun _ => false⟩))
    (by rintro m hm; rw [← Option.some.inj hm]; rfl) (by rintro m hm; rw [← Option.some.inj hm]; left; rfl)
    (Or.inr (by rintro m hm; exact ⟨_, (Option.some.inj hm).symm⟩)) false false
  refine ⟨out, w, by rw [C78_float_padding_is_boolean]; exact h1, ?_, ?_⟩
  · have := h4 0 (by omega) 0 (by omega) 0 (by show 0 < 1; omega)
    rw [show Layout.index .seqFirst 0 0 0 = [0, 0, 0] from rfl] at this
    rw [this, unit_output (m0 := 0) (m1 := ⊥) rfl (by simp) (by simp)]
    · simp [Spec.expScore]
    · simp [attnValue, padValue, Mask.toFloat, Mask.shape, boolOf, softMask]
    · simp [attnValue, padValue, Mask.toFloat, Mask.shape, boolOf, softMask]
  · rw [unit_output (m0 := 0) (m1 := ((-1 : ℝ) : WithBot ℝ)) rfl (by simp) (by simp)]
    · have h0 : 0 < Spec.expScore 0 := Real.exp_pos 0
      have h1 : 0 < Spec.expScore ((-1 : ℝ) : WithBot ℝ) := Real.exp_pos (-1)
      positivity
    · simp [attnValue, padValue, Mask.toFloat, Mask.shape, softMask]
    · simp [attnValue, padValue, Mask.toFloat, Mask.shape, softMask]

/-- **C78, disagreement.**  A packed projection takes tensors for the same one when they start at the same place in memory: the query
alone is used, for instance, when it is the first positions of the keys.  Whatever keys and values of the same shape are passed. -/
theorem C78_shared_memory (M : Module) (needWeights average : Bool) {l : Linear} (hl : M.inProj = .packed l) (hbf : M.batchFirst = false)
    {query key value : NdTensor ℝ} {T S B d : ℕ} (hq : query.shape = [T, B, M.embedDim]) (hk : key.shape = [S, B, d])
    (hv : value.shape = [S, B, d]) :
    M.forward true needWeights average query key value none none = M.forward true needWeights average query query query none none := by
  have hbody : ∀ key value : NdTensor ℝ, M.body true true needWeights average query key value none none =
      M.body true true needWeights average query query query none none := by
    intro key value
    unfold Module.body
    rw [hl]
    rfl
  have hc : ∀ key value : NdTensor ℝ, key.shape.length = 3 → value.shape.length = 3 →
      shapeCheck M.numHeads query key value none none = some true := by
    intro key value hk hv
    unfold shapeCheck
    rw [if_pos (by rw [hq]; rfl), if_pos]
    exact ⟨hk, hv, by simp, by simp⟩
  unfold Module.forward
  rw [if_neg (by rw [hbf]; simp), if_neg (by rw [hbf]; simp)]
  unfold Module.multiHeadAttention
  rw [hc key value (by rw [hk]; rfl) (by rw [hv]; rfl), hc query query (by rw [hq]; rfl) (by rw [hq]; rfl)]
  simp only [Option.bind_some, if_true, prepPad, hbody key value]
  rw [if_neg (show ¬ (key.shape ≠ value.shape) by rw [hk, hv]; simp), if_neg (show ¬ (query.shape ≠ query.shape) by simp)]

example : ∃ out w, unitPacked.forward true false false ⟨[1, 1, 1], fun _ => 0⟩ ⟨[2, 1, 1], fun idx => idx.getD 0 0⟩
    ⟨[2, 1, 1], fun idx => idx.getD 0 0⟩ none none = some (out, w) ∧ out.data [0, 0, 0] = 0 ∧
    unitPacked.output .seqFirst ⟨[1, 1, 1], fun _ => 0⟩ ⟨[2, 1, 1], fun idx => idx.getD 0 0⟩ ⟨[2, 1, 1], fun idx => idx.getD 0 0⟩ none none 2 0 0 0
      = 1 / 2 := by
  obtain ⟨out, w, S', h1, -, -, h4, -⟩ := C78_attention_partial unitPacked .seqFirst (T := 1) (S := 1) (B := 1) (d := 1)
    ⟨Nat.one_pos, one_dvd _, ⟨rfl, rfl, rfl⟩, rfl⟩ rfl (query := ⟨[1, 1, 1], fun _ => 0⟩) (key := ⟨[1, 1, 1], fun _ => 0⟩)
    (value := ⟨[1, 1, 1], fun _ => 0⟩) rfl rfl rfl true ⟨rfl, rfl, rfl⟩ (kpm := none) (attn := none) (by simp) (by simp) (Or.inl rfl) false false
  refine ⟨out, w, ?_, ?_, ?_⟩
  · rw [C78_shared_memory unitPacked false false rfl rfl (T := 1) (S := 2) (B := 1) (d := 1) rfl rfl rfl]
    exact h1
  · have := h4 0 (by omega) 0 (by omega) 0 (by show 0 < 1; omega)
    rw [show Layout.index .seqFirst 0 0 0 = [0, 0, 0] from rfl] at this
    rw [this]
    simp [Module.output, Linear.row, unitPacked, unitModule, Spec.attentionHeads, Module.keyValues, Module.extend, Module.valueRow]
  · have := unit_output (q := ⟨[1, 1, 1], fun _ => 0⟩) (k := ⟨[2, 1, 1], fun idx => idx.getD 0 0⟩) (v := ⟨[2, 1, 1], fun idx => idx.getD 0 0⟩)
      (kpm := none) (attn := none) (m0 := 0) (m1 := 0) rfl (by simp) (by simp) (by simp [attnValue, padValue]) (by simp [attnValue, padValue])
    have e : unitPacked.output .seqFirst ⟨[1, 1, 1], fun _ => 0⟩ ⟨[2, 1, 1], fun idx => idx.getD 0 0⟩ ⟨[2, 1, 1], fun idx => idx.getD 0 0⟩ none none 2 0 0 0 =
      unitModule.output .seqFirst ⟨[1, 1, 1], fun _ => 0⟩ ⟨[2, 1, 1], fun idx => idx.getD 0 0⟩ ⟨[2, 1, 1], fun idx => idx.getD 0 0⟩ none none 2 0 0 0 := rfl
    rw [e, this]
    have h0 : Spec.expScore 0 = 1 := Real.exp_zero
    rw [h0]
    norm_num

end Brevitas.Mha
