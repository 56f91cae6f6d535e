import Verif.Model.OptAttn
import Verif.Spec.OptAttn
import Verif.Props.Mha
import Verif.Lemmas.Dynamic

/-!
# C134: the attention layer of OPT models attends under the mask it is given
-/

namespace Brevitas.Props

open Brevitas.OptAttn Brevitas.Mha NdTensor Finset

private theorem at_lt {b B n : ℕ} (hb : b = 1 ∨ b = B) (hn : n < B) : OptAttn.Spec.at b n < b := by
  unfold OptAttn.Spec.at
  split_ifs with h <;> omega

private theorem handler_four {K : Type} (t : NdTensor K) {B H T S b k q : ℕ} (ht : t.shape = [b, k, q, S]) (hb : b = 1 ∨ b = B) (hk : k = 1 ∨ k = H) (hq : q = 1 ∨ q = T) :
    ∃ t', maskHandler B H T S t = some t' ∧ t'.shape = [B * H, T, S] ∧ ∀ n < B, ∀ h < H, ∀ i < T, ∀ s < S,
      t'.data [n * H + h, i, s] = t.data [OptAttn.Spec.at b n, OptAttn.Spec.at k h, OptAttn.Spec.at q i, s] := by
  obtain ⟨t1, e1, s1, d1⟩ : ∃ t1, repeatIfOne 0 [B, 1, 1, 1] t = t1 ∧ t1.shape = [B, k, q, S] ∧
      ∀ n < B, ∀ h < k, ∀ i < q, ∀ s < S, t1.data [n, h, i, s] = t.data [OptAttn.Spec.at b n, h, i, s] := by
    refine ⟨_, rfl, ?_⟩
    unfold repeatIfOne
    by_cases h1 : b = 1
    · rw [if_pos (by rw [ht]; exact h1)]
      refine ⟨by simp [repeatDims, ht, h1], fun n hn h hh i hi s hs => ?_⟩
      simp [repeatDims, ht, h1, OptAttn.Spec.at, Nat.mod_one, Nat.mod_eq_of_lt hh, Nat.mod_eq_of_lt hi, Nat.mod_eq_of_lt hs]
    · have hbB : b = B := hb.resolve_left h1
      rw [if_neg (by rw [ht]; exact h1)]
      refine ⟨by rw [ht, hbB], fun n hn h hh i hi s hs => ?_⟩
      simp [OptAttn.Spec.at, h1]
  obtain ⟨t2, e2, s2, d2⟩ : ∃ t2, repeatIfOne 1 [1, H, 1, 1] t1 = t2 ∧ t2.shape = [B, H, q, S] ∧
      ∀ n < B, ∀ h < H, ∀ i < q, ∀ s < S, t2.data [n, h, i, s] = t1.data [n, OptAttn.Spec.at k h, i, s] := by
    refine ⟨_, rfl, ?_⟩
    unfold repeatIfOne
    by_cases h1 : k = 1
    · rw [if_pos (by rw [s1]; exact h1)]
      refine ⟨by simp [repeatDims, s1, h1], fun n hn h hh i hi s hs => ?_⟩
      simp [repeatDims, s1, h1, OptAttn.Spec.at, Nat.mod_one, Nat.mod_eq_of_lt hn, Nat.mod_eq_of_lt hi, Nat.mod_eq_of_lt hs]
    · have hkH : k = H := hk.resolve_left h1
      rw [if_neg (by rw [s1]; exact h1)]
      refine ⟨by rw [s1, hkH], fun n hn h hh i hi s hs => ?_⟩
      simp [OptAttn.Spec.at, h1]
  obtain ⟨t3, e3, s3, d3⟩ : ∃ t3, repeatIfOne 2 [1, 1, T, 1] t2 = t3 ∧ t3.shape = [B, H, T, S] ∧
      ∀ n < B, ∀ h < H, ∀ i < T, ∀ s < S, t3.data [n, h, i, s] = t2.data [n, h, OptAttn.Spec.at q i, s] := by
    refine ⟨_, rfl, ?_⟩
    unfold repeatIfOne
    by_cases h1 : q = 1
    · rw [if_pos (by rw [s2]; exact h1)]
      refine ⟨by simp [repeatDims, s2, h1], fun n hn h hh i hi s hs => ?_⟩
      simp [repeatDims, s2, h1, OptAttn.Spec.at, Nat.mod_one, Nat.mod_eq_of_lt hn, Nat.mod_eq_of_lt hh, Nat.mod_eq_of_lt hs]
    · have hqT : q = T := hq.resolve_left h1
      rw [if_neg (by rw [s2]; exact h1)]
      refine ⟨by rw [s2, hqT], fun n hn h hh i hi s hs => ?_⟩
      simp [OptAttn.Spec.at, h1]
  refine ⟨⟨[B * H, T, S], fun idx => t3.data (fromPosition t3.shape (Brevitas.Spec.ravel [B * H, T, S] idx))⟩, ?_, rfl, ?_⟩
  · unfold maskHandler
    rw [if_pos (by rw [ht]; rfl)]
    simp only [e1, e2, e3]
    unfold NdTensor.reshape
    rw [if_pos (by rw [s3]; simp [Nat.mul_assoc])]
  · intro n hn h hh i hi s hs
    have hr : Brevitas.Spec.ravel [B * H, T, S] [n * H + h, i, s] = Brevitas.Spec.ravel [B, H, T, S] [n, h, i, s] := by
      simp [Brevitas.Spec.ravel]
    show t3.data (fromPosition t3.shape (Brevitas.Spec.ravel [B * H, T, S] [n * H + h, i, s])) = _
    rw [s3, hr, Brevitas.Dynamic.fromPosition_ravel (by simp [InBounds, hn, hh, hi, hs]), d3 n hn h hh i hi s hs, d2 n hn h hh _ (at_lt hq hi) s hs, d1 n hn _ (at_lt hk hh) _ (at_lt hq hi) s hs]

/-- The handled mask has a form the layer takes, and adds what the given one is to add. -/
private theorem handler_spec (m : Mask) {B H T S : ℕ} (hm : OptAttn.Spec.MaskFor m B H T S) :
    ∃ m', m.map (maskHandler B H T S) = some m' ∧ (m'.shape = [T, S] ∨ m'.shape = [B * H, T, S]) ∧
      ∀ n < B, ∀ h < H, ∀ t < T, ∀ s < S, attnValue (some m') H n h t s = OptAttn.Spec.maskValue m H n h t s := by
  rcases hm with ⟨b, k, q, hs, hb, hk, hq⟩ | hs | ⟨q, hs, hq⟩
  · cases m with
    | bool u =>
      obtain ⟨t', h1, h2, h3⟩ := handler_four u (show u.shape = _ from hs) hb hk hq
      refine ⟨.bool t', by simp [Mask.map, h1], Or.inr h2, fun n hn h hh t ht s hs' => ?_⟩
      have e : OptAttn.Spec.maskValue (.bool u) H n h t s = if u.data [OptAttn.Spec.at b n, OptAttn.Spec.at k h, OptAttn.Spec.at q t, s] then ⊥ else 0 := by
        unfold OptAttn.Spec.maskValue
        simp only [hs]
        rfl
      have e2 : attnValue (some (.bool t')) H n h t s = if t'.data [n * H + h, t, s] then ⊥ else 0 := by
        show (if t'.shape.length = 2 then _ else _) = _
        rw [if_neg (by rw [h2]; simp)]
        rfl
      rw [e, e2, h3 n hn h hh t ht s hs']
    | float u =>
      obtain ⟨t', h1, h2, h3⟩ := handler_four u (show u.shape = _ from hs) hb hk hq
      refine ⟨.float t', by simp [Mask.map, h1], Or.inr h2, fun n hn h hh t ht s hs' => ?_⟩
      have e : OptAttn.Spec.maskValue (.float u) H n h t s = u.data [OptAttn.Spec.at b n, OptAttn.Spec.at k h, OptAttn.Spec.at q t, s] := by
        unfold OptAttn.Spec.maskValue
        simp only [hs]
        rfl
      have e2 : attnValue (some (.float t')) H n h t s = t'.data [n * H + h, t, s] := by
        show (if t'.shape.length = 2 then _ else _) = _
        rw [if_neg (by rw [h2]; simp)]
        rfl
      rw [e, e2, h3 n hn h hh t ht s hs']
  · have hh : ∀ {K : Type} (t : NdTensor K), t.shape = [B * H, T, S] → maskHandler B H T S t = some t := by
      intro K t ht
      unfold maskHandler
      rw [if_neg (by rw [ht]; simp), if_neg (by rw [ht]; simp)]
    refine ⟨m, ?_, Or.inr hs, fun n hn h hh t ht s hs' => ?_⟩
    · cases m with
      | bool u => simp [Mask.map, hh u hs]
      | float u => simp [Mask.map, hh u hs]
    · unfold attnValue OptAttn.Spec.maskValue
      simp only [hs]
      rfl
  · rcases hq with ⟨rfl, rfl⟩ | ⟨h1, rfl⟩
    · have hh : ∀ {K : Type} (t : NdTensor K), t.shape = [1, T] → maskHandler B H T T t = some (repeatDims [T, 1] t) := by
        intro K t ht
        unfold maskHandler
        rw [if_neg (by rw [ht]; simp), if_pos (by rw [ht]; simp), if_pos rfl]
      cases m with
      | bool u =>
        have hs : u.shape = [1, T] := hs
        refine ⟨.bool (repeatDims [T, 1] u), by simp [Mask.map, hh u hs], Or.inl (by simp [Mask.shape, repeatDims, hs]), fun n hn h hh t ht s hs' => ?_⟩
        simp [attnValue, OptAttn.Spec.maskValue, Mask.shape, Mask.toFloat, repeatDims, hs, OptAttn.Spec.at, Nat.mod_one, Nat.mod_eq_of_lt hs']
      | float u =>
        have hs : u.shape = [1, T] := hs
        refine ⟨.float (repeatDims [T, 1] u), by simp [Mask.map, hh u hs], Or.inl (by simp [Mask.shape, repeatDims, hs]), fun n hn h hh t ht s hs' => ?_⟩
        simp [attnValue, OptAttn.Spec.maskValue, Mask.shape, Mask.toFloat, repeatDims, hs, OptAttn.Spec.at, Nat.mod_one, Nat.mod_eq_of_lt hs']
    · have hh : ∀ {K : Type} (t : NdTensor K), t.shape = [q, S] → maskHandler B H q S t = some t := by
        intro K t ht
        unfold maskHandler
        rw [if_neg (by rw [ht]; simp), if_neg (by rw [ht]; simpa using h1)]
      refine ⟨m, ?_, Or.inl hs, fun n hn h hh t ht s hs' => ?_⟩
      · cases m with
        | bool u => simp [Mask.map, hh u hs]
        | float u => simp [Mask.map, hh u hs]
      · unfold attnValue OptAttn.Spec.maskValue
        simp only [hs]
        simp [OptAttn.Spec.at, h1]

private theorem weight_congr (f : Brevitas.Spec.Elementwise) (d : ℕ) (query : ℕ → ℕ → ℝ) (kv : Brevitas.Spec.KeyValues) {m m' : ℕ → ℕ → ℕ → WithBot ℝ} {h t : ℕ}
    (hm : ∀ s, m h t s = m' h t s) (s : ℕ) : Brevitas.Spec.attentionWeight f d query kv m h t s = Brevitas.Spec.attentionWeight f d query kv m' h t s := by
  unfold Brevitas.Spec.attentionWeight Brevitas.Spec.attentionScore
  simp only [hm]

/-- C134: self-attention or attention to other states, sequence first or batch first, under a boolean or a float mask that is given for every sequence, head and position or is
shared between them: output and weights are those of attention with that mask. -/
theorem C134_attention (M : Module) (l : Layout) {T S B d : ℕ} (hM : M.Fits d) (hl : l.Of M B) (hb : l ≠ .single) {hidden : NdTensor ℝ} (kv : Option (NdTensor ℝ))
    (hq : hidden.shape = l.shape T B M.embedDim) (hk : (kv.getD hidden).shape = l.shape S B d) (samePtr : Bool)
    (hsame : M.inProj.Accepts (kv.isNone || samePtr) hidden (kv.getD hidden) (kv.getD hidden)) (m : Mask) (hm : OptAttn.Spec.MaskFor m B M.numHeads T S) (outputAttentions : Bool) :
    ∃ out w S', OptAttn.forward M hidden kv samePtr (some m) false outputAttentions = some (out, w) ∧
      (∀ n, (M.keyValues l (kv.getD hidden) (kv.getD hidden) S n).len = S') ∧ out.shape = l.shape T B M.outProj.outFeatures ∧
      (∀ t < T, ∀ n < B, ∀ e < M.outProj.outFeatures,
        out.data (l.index t n e) = OptAttn.Spec.output M l hidden (kv.getD hidden) S (OptAttn.Spec.maskValue m M.numHeads) n t e) ∧
      (outputAttentions = false → w = none) ∧
      (outputAttentions = true → ∃ y, w = some y ∧ y.shape = [B, M.numHeads, T, S'] ∧ ∀ n < B, ∀ h < M.numHeads, ∀ t < T, ∀ s < S',
        y.data [n, h, t, s] = OptAttn.Spec.weights M l hidden (kv.getD hidden) S (OptAttn.Spec.maskValue m M.numHeads) n h t s) := by
  obtain ⟨m', h1, h2, h3⟩ := handler_spec m hm
  obtain ⟨out, w, S', g1, g2, g3, g4, g5⟩ := C78_attention_partial M l (T := T) (S := S) (B := B) hM hl hq hk hk (kv.isNone || samePtr) hsame (kpm := none) (attn := some m')
    (by simp) (by rintro m'' h; cases h; exact h2) (Or.inr (by simp)) outputAttentions false
  have hmask : ∀ n < B, ∀ h < M.numHeads, ∀ t < T, ∀ s, M.mask l none (some m') S n h t s = if s < S then OptAttn.Spec.maskValue m M.numHeads n h t s else 0 := by
    intro n hn h hh t ht s
    unfold Module.mask
    by_cases hs : s < S
    · rw [if_pos hs, if_pos hs, h3 n hn h hh t ht s hs]
      exact add_zero _
    · rw [if_neg hs, if_neg hs]
  refine ⟨out, w, S', ?_, g2, g3, ?_, g5.1, ?_⟩
  · have hshape : (if M.batchFirst then hidden.shape.getD 0 0 else hidden.shape.getD 1 0) = B ∧ (if M.batchFirst then hidden.shape.getD 1 0 else hidden.shape.getD 0 0) = T ∧
        (if M.batchFirst then (kv.getD hidden).shape.getD 1 0 else (kv.getD hidden).shape.getD 0 0) = S := by
      cases l with
      | seqFirst =>
        have hbf : M.batchFirst = false := hl
        simp [hbf, hq, hk, Layout.shape]
      | batchFirst =>
        have hbf : M.batchFirst = true := hl
        simp [hbf, hq, hk, Layout.shape]
      | single => exact absurd rfl hb
    unfold OptAttn.forward
    simp only [Bool.false_eq_true, if_false, Option.bind_some]
    rw [hshape.1, hshape.2.1, hshape.2.2, h1, Option.bind_some, g1]
  · intro t ht n hn e he
    rw [g4 t ht n hn e he]
    unfold Module.output OptAttn.Spec.output Linear.row
    congr 2
    refine Finset.sum_congr rfl fun i hi => ?_
    have hi : i < M.embedDim := by
      have := Finset.mem_range.mp hi
      rwa [hM.2.2.2] at this
    congr 2
    unfold Brevitas.Spec.attentionHeads
    refine Finset.sum_congr rfl fun s _ => ?_
    congr 1
    have hlt : i / (M.embedDim / M.numHeads) < M.numHeads := by
      obtain ⟨c, hc⟩ := hM.2.1
      rw [hc, Nat.mul_div_cancel_left _ hM.1]
      rw [Nat.div_lt_iff_lt_mul (by
        rcases Nat.eq_zero_or_pos c with rfl | h
        · rw [hc] at hi; simp at hi
        · exact h)]
      rw [← hc]
      exact hi
    exact weight_congr _ _ _ _ (fun s => hmask n hn _ hlt t ht s) s
  · intro ho
    obtain ⟨y, hy1, hy2, hy3⟩ := g5.2.2 ho rfl
    have hw : ∀ n rest, l.weightIndex n rest = n :: rest := by
      intro n rest
      cases l <;> first | rfl | exact absurd rfl hb
    refine ⟨y, hy1, by rw [hy2, hw], fun n hn h hh t ht s hs => ?_⟩
    have := hy3 n hn h hh t ht s hs
    rw [hw] at this
    rw [this]
    exact weight_congr _ _ _ _ (fun s => hmask n hn h hh t ht s) s

/-- C134: a position that a boolean mask hides from all of a sequence gets no weight, whatever the states are (if the weights are not quantised). -/
theorem C134_hidden_gets_no_weight (M : Module) (l : Layout) {B T S d : ℕ} (hM : M.Fits d) (hl : l.Of M B) (hb : l ≠ .single) (hquant : M.quant = {}) {hidden : NdTensor ℝ}
    (kv : Option (NdTensor ℝ)) (hq : hidden.shape = l.shape T B M.embedDim) (hk : (kv.getD hidden).shape = l.shape S B d) (samePtr : Bool)
    (hsame : M.inProj.Accepts (kv.isNone || samePtr) hidden (kv.getD hidden) (kv.getD hidden)) (u : NdTensor Bool) {k q : ℕ} (hu : u.shape = [B, k, q, S])
    (hk1 : k = 1 ∨ k = M.numHeads) (hq1 : q = 1 ∨ q = T) :
    ∃ out y, OptAttn.forward M hidden kv samePtr (some (.bool u)) false true = some (out, some y) ∧
      ∀ n < B, ∀ h < M.numHeads, ∀ t < T, ∀ s < S, (∀ h' < k, ∀ t' < q, u.data [n, h', t', s] = true) → y.data [n, h, t, s] = 0 := by
  obtain ⟨out, w, S', h1, h2, -, -, -, h5⟩ := C134_attention M l hM hl hb kv hq hk samePtr hsame (.bool u) (Or.inl ⟨B, k, q, hu, Or.inr rfl, hk1, hq1⟩) true
  obtain ⟨y, rfl, -, hy⟩ := h5 rfl
  refine ⟨out, y, h1, fun n hn h hh t ht s hs hall => ?_⟩
  have hS : S ≤ S' := by
    rw [← h2 0]
    unfold Module.keyValues Module.extend
    cases M.biasKV with
    | none => by_cases hz : M.addZeroAttn <;> simp [hz, Brevitas.Spec.KeyValues.push]
    | some p => by_cases hz : M.addZeroAttn <;> simp [hz, Brevitas.Spec.KeyValues.push]; omega
  rw [hy n hn h hh t ht s (by omega)]
  have hval : OptAttn.Spec.maskValue (.bool u) M.numHeads n h t s = ⊥ := by
    unfold OptAttn.Spec.maskValue
    simp only [Mask.shape, hu, Mask.toFloat]
    have : OptAttn.Spec.at B n = n := by
      unfold OptAttn.Spec.at
      split_ifs <;> omega
    rw [this, hall _ (at_lt hk1 hh) _ (at_lt hq1 ht)]
    rfl
  unfold OptAttn.Spec.weights Brevitas.Spec.attentionWeight Brevitas.Spec.softmax Brevitas.Spec.attentionScore
  rw [hquant]
  simp only [id, if_pos hs, hval, WithBot.bot_add]
  simp [Brevitas.Spec.expScore]

/-! ## Disagreements -/

/-- Disagreement: the mask is declared optional, but without one the layer raises. -/
theorem C134_no_mask_raises (M : Module) (hidden : NdTensor ℝ) (kv : Option (NdTensor ℝ)) (samePtr headMask outputAttentions : Bool) :
    OptAttn.forward M hidden kv samePtr none headMask outputAttentions = none := by
  unfold OptAttn.forward
  cases headMask <;> rfl

/-- Disagreement: for one position that attends to several, the mask with two dimensions that `MultiheadAttention` takes raises. -/
theorem C134_one_position_mask_raises (M : Module) {B S d : ℕ} (hbf : M.batchFirst = true) {hidden kv : NdTensor ℝ} (hq : hidden.shape = [B, 1, M.embedDim])
    (hk : kv.shape = [B, S, d]) (hS : S ≠ 1) (samePtr outputAttentions : Bool) (m : Mask) (hm : m.shape = [1, S]) :
    OptAttn.forward M hidden (some kv) samePtr (some m) false outputAttentions = none := by
  have hh : ∀ {K : Type} (t : NdTensor K), t.shape = [1, S] → maskHandler B M.numHeads 1 S t = none := by
    intro K t ht
    unfold maskHandler
    rw [if_neg (by rw [ht]; simp), if_pos (by rw [ht]; simp), if_neg (by omega)]
  unfold OptAttn.forward
  simp only [Bool.false_eq_true, if_false, Option.bind_some, hbf, if_true, hq, hk, Option.getD_some, List.getD_cons_zero, List.getD_cons_succ]
  cases m with
  | bool u => simp [Mask.map, hh u hm]
  | float u => simp [Mask.map, hh u hm]

/-! ## Examples -/

example : OptAttn.Spec.MaskFor (.bool ⟨[2, 1, 1, 3], fun _ => false⟩) 2 4 3 3 := Or.inl ⟨2, 1, 1, rfl, Or.inr rfl, Or.inl rfl, Or.inl rfl⟩

example : ∃ out w, OptAttn.forward unitPacked ⟨[3, 2, 1], fun _ => 1⟩ none false (some (.bool ⟨[2, 1, 1, 3], fun _ => false⟩)) false true = some (out, w) := by
  obtain ⟨out, w, -, h, -⟩ := C134_attention unitPacked .seqFirst (T := 3) (S := 3) (B := 2) (d := 1) ⟨Nat.one_pos, one_dvd _, ⟨rfl, rfl, rfl⟩, rfl⟩ rfl (by simp) none
    (hidden := ⟨[3, 2, 1], fun _ => 1⟩) rfl rfl false ⟨rfl, rfl, rfl⟩ (.bool ⟨[2, 1, 1, 3], fun _ => false⟩)
    (Or.inl ⟨2, 1, 1, rfl, Or.inr rfl, Or.inl rfl, Or.inl rfl⟩) true
  exact ⟨out, w, h⟩

end Brevitas.Props
