import Verif.Lemmas.QuantConv2

/-!
# The sum of products that a layer computes for one output
-/

set_option linter.unusedSectionVars false

namespace Brevitas

namespace QuantConv

open NdTensor SameConv

/-- The pairs (index of the weight, index of the input) whose products are summed for one output. -/
def LayerFn.terms (fn : LayerFn) (xs ws idx : List ℕ) : List (List ℕ × List ℕ) :=
  match fn with
  | .linear => (List.range (ws.getD 1 0)).map fun i => ([idx.getLastD 0, i], idx.dropLast ++ [i])
  | .conv stride padding dilation groups =>
    (taps (ws.getD 1 0) (ws.drop 2)).filterMap fun a =>
      let q := List.zipWith (fun (i : ℕ) (p : ℕ × ℕ) => (i : ℤ) - p.1) (tapPos stride dilation (idx.drop 2) a.2) (padPairs (symPads padding)).reverse
      if List.Forall₂ (fun (p : ℤ) (n : ℕ) => 0 ≤ p ∧ p < n) q (xs.drop 2) then
        some (idx.getD 1 0 :: a.1 :: a.2, idx.getD 0 0 :: (idx.getD 1 0 / (ws.getD 0 0 / groups) * ws.getD 1 0 + a.1) :: q.map Int.toNat)
      else none
  | .convTranspose stride padding _ dilation groups =>
    (taps (xs.getD 1 0 / groups) (ws.drop 2)).filterMap fun a =>
      (transposedSource (xs.drop 2) stride padding dilation (idx.drop 2) a.2).map fun pos =>
        ((idx.getD 1 0 / ws.getD 1 0 * (xs.getD 1 0 / groups) + a.1) :: (idx.getD 1 0 % ws.getD 1 0) :: a.2,
          idx.getD 0 0 :: (idx.getD 1 0 / ws.getD 1 0 * (xs.getD 1 0 / groups) + a.1) :: pos)

theorem sum_filterMap {R α β : Type*} [CommRing R] (l : List α) (f : α → Option β) (g : β → R) :
    ((l.filterMap f).map g).sum = (l.map fun a => ((f a).map g).getD 0).sum := by
  induction l with
  | nil => rfl
  | cons a l ih =>
    cases h : f a with
    | none => simp [List.filterMap_cons, h, ih]
    | some b => simp [List.filterMap_cons, h, ih]

/-- What a layer computes. -/
theorem apply_terms {R : Type*} [CommRing R] (fn : LayerFn) (x w : NdTensor R) (bias : Option (List ℕ → R)) (y : NdTensor R) (h : fn.apply x w bias = some y) :
    ∀ idx, InBounds y.shape idx → (∀ a ∈ fn.terms x.shape w.shape idx, InBounds w.shape a.1 ∧ InBounds x.shape a.2) ∧
      y.data idx = ((fn.terms x.shape w.shape idx).map fun a => w.data a.1 * x.data a.2).sum +
        (bias.map fun b => b [idx.getD (fn.channelDim x.shape.length) 0]).getD 0 := by
  cases fn with
  | linear =>
    simp only [LayerFn.apply] at h
    · unfold linearNd at h
      split at h
      · rename_i out k hws
        by_cases hc : x.shape ≠ [] ∧ x.shape.getLastD 0 = k
        · rw [if_pos hc] at h
          obtain rfl := Option.some.inj h
          intro idx hidx
          obtain ⟨l, a, rfl⟩ : ∃ l a, idx = l ++ [a] := by
            rcases List.eq_nil_or_concat idx with h | ⟨l, a, h⟩
            · subst h; have := hidx.length_eq; simp at this
            · exact ⟨l, a, by simpa using h⟩
          have hll : l.length = x.shape.dropLast.length := by have := hidx.length_eq; simpa using this
          have h1 : InBounds x.shape.dropLast l := by
            have := List.forall₂_take l.length hidx
            rw [List.take_left' rfl, List.take_left' hll.symm] at this
            exact this
          have h2 : a < out := by
            have := List.forall₂_drop l.length hidx
            rw [List.drop_left' rfl, List.drop_left' hll.symm] at this
            cases this with
            | cons h _ => exact h
          have hsplit : x.shape = x.shape.dropLast ++ [k] := by
            obtain ⟨hne, hlast⟩ := hc
            have h3 := List.dropLast_append_getLast hne
            have h4 : ∀ (l : List ℕ) (h : l ≠ []), l.getLast h = l.getLastD 0 := by
              intro l h
              rw [List.getLastD_eq_getLast?, List.getLast?_eq_some_getLast h]; rfl
            rw [h4, hlast] at h3
            exact h3.symm
          refine ⟨?_, ?_⟩
          · intro t ht
            simp only [LayerFn.terms, hws, List.getD_cons_succ, List.getD_cons_zero, List.mem_map, List.mem_range] at ht
            obtain ⟨i, hi, rfl⟩ := ht
            refine ⟨by rw [hws]; exact List.Forall₂.cons (by simpa using h2) (List.Forall₂.cons hi List.Forall₂.nil), ?_⟩
            simp only [List.dropLast_concat]
            rw [hsplit]
            exact List.rel_append h1 (List.Forall₂.cons hi List.Forall₂.nil)
          · simp only [LayerFn.terms, hws, List.getD_cons_succ, List.getD_cons_zero, List.map_map, Function.comp_def]
            congr 1
            have hlen : (l ++ [a]).length = x.shape.length := by
              have := hidx.length_eq
              have := List.length_pos_iff.2 hc.1
              simp at *; omega
            rw [getLastD_eq_getD, LayerFn.channelDim, ← hlen]
        · rw [if_neg hc] at h; exact absurd h (by simp)
      · exact absurd h (by simp)
  | conv stride padding dilation groups =>
    simp only [LayerFn.apply, convPadNd] at h
    by_cases hl : padding.length + 2 = x.shape.length
    · rw [if_pos hl] at h
      obtain ⟨bt, ch, sp, hxs⟩ : ∃ bt ch sp, x.shape = bt :: ch :: sp := by
        match hs : x.shape with
        | [] => rw [hs] at hl; simp at hl
        | [_] => rw [hs] at hl; simp at hl
        | bt :: ch :: sp => exact ⟨_, _, _, rfl⟩
      have hpl : ((padPairs (symPads padding)).reverse).length = sp.length := by
        rw [List.length_reverse, padPairs_symPads]; rw [hxs] at hl; simpa using hl
      have P := paddedBy_padZeros x bt ch sp (symPads padding) hxs hpl
      · unfold convNd at h
        rw [P.shape] at h
        split at h
        · rename_i bt' ch' spp out cg ks hxs' hws
          simp only [List.cons.injEq] at hxs'
          obtain ⟨rfl, rfl, rfl⟩ := hxs'
          split at h
          · rename_i hcond
            obtain ⟨h1, h2, h3, h4, h5, h6, h7, h8⟩ := hcond
            obtain rfl := Option.some.inj h
            intro idx hidx
            obtain ⟨b, co, o, rfl⟩ : ∃ b co o, idx = b :: co :: o := by
              cases hidx with
              | cons _ h => cases h with
                | cons _ _ => exact ⟨_, _, _, rfl⟩
            obtain ⟨hb, hidx⟩ := ChannelScale.inBounds_cons.1 hidx
            obtain ⟨hco, ho⟩ := ChannelScale.inBounds_cons.1 hidx
            refine ⟨?_, ?_⟩
            · intro t ht
              simp only [LayerFn.terms, hws, hxs, List.getD_cons_succ, List.getD_cons_zero, List.drop_succ_cons, List.drop_zero, List.mem_filterMap] at ht
              obtain ⟨⟨ci, tt⟩, ha, hf⟩ := ht
              obtain ⟨hci, htt⟩ := mem_taps.1 ha
              split at hf
              · rename_i hq
                obtain rfl := Option.some.inj hf
                refine ⟨by rw [hws]; exact List.Forall₂.cons hco (List.Forall₂.cons hci htt), ?_⟩
                rw [hxs]
                refine List.Forall₂.cons hb (List.Forall₂.cons (by rw [h5]; exact group_lt hco h6 hci) ?_)
                rw [List.forall₂_map_left_iff]
                exact hq.imp fun a b h => by omega
              · exact absurd hf (by simp)
            · simp only [convSum, LayerFn.terms, LayerFn.channelDim, hws, hxs, List.getD_cons_succ, List.getD_cons_zero, List.drop_succ_cons, List.drop_zero]
              rw [sum_taps, sum_filterMap]
              congr 2
              apply List.map_congr_left
              rintro ⟨ci, tt⟩ ha
              obtain ⟨hci, htt⟩ := mem_taps.1 ha
              rw [P.data _ _ _ (tapPos_inBounds _ ks stride dilation o tt h1 h2 h3 h7 h8 ho htt)]
              simp only [zeroRead, hxs, List.length_cons, List.length_nil, List.drop_succ_cons, List.drop_zero]
              split_ifs with hq
              · simp
              · simp
          · exact absurd h (by simp)
        · exact absurd h (by simp)
    · rw [if_neg hl] at h; exact absurd h (by simp)
  | convTranspose stride padding outputPadding dilation groups =>
    simp only [LayerFn.apply] at h
    · unfold convTransposeNd at h
      split at h
      · rename_i bt ch sp ci og ks hxs hws
        split at h
        · rename_i hcond
          obtain ⟨h1, h2, h3, h4, h5, h6, h7, h8, h9⟩ := hcond
          obtain rfl := Option.some.inj h
          have hlen := transposedSizes_length sp ks stride padding outputPadding dilation h1.symm (by omega) (by omega) (by omega) (by omega)
          intro idx hidx
          obtain ⟨b, co, o, rfl⟩ : ∃ b co o, idx = b :: co :: o := by
            cases hidx with
            | cons _ h => cases h with
              | cons _ _ => exact ⟨_, _, _, rfl⟩
          obtain ⟨hb, hidx⟩ := ChannelScale.inBounds_cons.1 hidx
          obtain ⟨hco, ho⟩ := ChannelScale.inBounds_cons.1 hidx
          have hog : 0 < og := by
            rcases Nat.eq_zero_or_pos og with h | h
            · rw [h] at hco; simp at hco
            · exact h
          have hgrp : co / og < groups := by rw [Nat.div_lt_iff_lt_mul hog, Nat.mul_comm]; exact hco
          refine ⟨?_, ?_⟩
          · intro t ht
            simp only [LayerFn.terms, hws, hxs, List.getD_cons_succ, List.getD_cons_zero, List.drop_succ_cons, List.drop_zero, List.mem_filterMap] at ht
            obtain ⟨⟨j, tt⟩, ha, hf⟩ := ht
            obtain ⟨hj, htt⟩ := mem_taps.1 ha
            rw [Option.map_eq_some_iff] at hf
            obtain ⟨pos, hsrc, rfl⟩ := hf
            have hpos := transposedSource_inBounds sp stride padding dilation o tt pos (by omega) (by omega) (by omega) (by rw [ho.length_eq, hlen])
              (by rw [htt.length_eq, h1]) hsrc
            have hch : co / og * (ch / groups) + j < ch := by
              calc co / og * (ch / groups) + j < co / og * (ch / groups) + ch / groups := by simp only at hj; omega
                _ = (co / og + 1) * (ch / groups) := by ring
                _ ≤ groups * (ch / groups) := Nat.mul_le_mul_right _ hgrp
                _ = ch := Nat.mul_div_cancel' (Nat.dvd_of_mod_eq_zero h8)
            exact ⟨by rw [hws]; exact List.Forall₂.cons (by rw [← h7]; exact hch) (List.Forall₂.cons (Nat.mod_lt _ hog) htt),
              by rw [hxs]; exact List.Forall₂.cons hb (List.Forall₂.cons hch hpos)⟩
          · simp only [LayerFn.terms, LayerFn.channelDim, hws, hxs, List.getD_cons_succ, List.getD_cons_zero, List.drop_succ_cons, List.drop_zero]
            rw [sum_taps, sum_filterMap]
            congr 2
            apply List.map_congr_left
            rintro ⟨j, tt⟩ ha
            simp only [Option.map_map, Function.comp_def]
        · exact absurd h (by simp)
      · exact absurd h (by simp)

/-- Whether a layer raises, and the shape of what it returns, are a matter of the shapes of its arguments. -/
theorem apply_shape {R S : Type*} [CommRing R] [CommRing S] (fn : LayerFn) (x w : NdTensor R) (bias : Option (List ℕ → R)) (y : NdTensor R) (h : fn.apply x w bias = some y)
    (x' w' : NdTensor S) (bias' : Option (List ℕ → S)) (hx : x'.shape = x.shape) (hw : w'.shape = w.shape) :
    ∃ y', fn.apply x' w' bias' = some y' ∧ y'.shape = y.shape := by
  cases fn with
  | linear =>
    simp only [LayerFn.apply] at h
    unfold linearNd at h
    simp only [LayerFn.apply, linearNd, hx, hw]
    split at h
    · rename_i out k hws
      split at h
      · rename_i hc
        rw [if_pos hc]
        obtain rfl := Option.some.inj h
        exact ⟨_, rfl, rfl⟩
      · exact absurd h (by simp)
    · exact absurd h (by simp)
  | conv stride padding dilation groups =>
    simp only [LayerFn.apply, convPadNd] at h
    by_cases hl : padding.length + 2 = x.shape.length
    · rw [if_pos hl] at h
      obtain ⟨bt, ch, sp, hxs⟩ : ∃ bt ch sp, x.shape = bt :: ch :: sp := by
        match hs : x.shape with
        | [] => rw [hs] at hl; simp at hl
        | [_] => rw [hs] at hl; simp at hl
        | bt :: ch :: sp => exact ⟨_, _, _, rfl⟩
      have hpl : ((padPairs (symPads padding)).reverse).length = sp.length := by
        rw [List.length_reverse, padPairs_symPads]; rw [hxs] at hl; simpa using hl
      have P := paddedBy_padZeros x bt ch sp (symPads padding) hxs hpl
      have P' := paddedBy_padZeros x' bt ch sp (symPads padding) (hx.trans hxs) hpl
      unfold convNd at h
      simp only [LayerFn.apply, convPadNd, hx, if_pos hl]
      unfold convNd
      rw [P'.shape, hw]
      rw [P.shape] at h
      split at h
      · rename_i bt' ch' spp out cg ks hxs' hws
        simp only [List.cons.injEq] at hxs'
        obtain ⟨rfl, rfl, rfl⟩ := hxs'
        split at h
        · rename_i hcond
          obtain rfl := Option.some.inj h
          simp only [if_pos hcond]
          exact ⟨_, rfl, rfl⟩
        · exact absurd h (by simp)
      · exact absurd h (by simp)
    · rw [if_neg hl] at h; exact absurd h (by simp)
  | convTranspose stride padding outputPadding dilation groups =>
    simp only [LayerFn.apply] at h
    unfold convTransposeNd at h
    simp only [LayerFn.apply, convTransposeNd, hx, hw]
    split at h
    · rename_i bt ch sp ci og ks hxs hws
      split at h
      · rename_i hcond
        obtain rfl := Option.some.inj h
        rw [if_pos hcond]
        exact ⟨_, rfl, rfl⟩
      · exact absurd h (by simp)
    · exact absurd h (by simp)

end QuantConv

end Brevitas
