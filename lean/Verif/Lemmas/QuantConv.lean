import Verif.Model.QuantConv
import Verif.Lemmas.SameConv
import Verif.Lemmas.ChannelScale

/-!
# Lemmas on layers of quant tensors
-/

set_option linter.unusedSectionVars false

namespace Brevitas

namespace QuantConv

open NdTensor SameConv

variable {K : Type*} [Field K] [LinearOrder K] [IsStrictOrderedRing K] [FloorRing K]

theorem bcIndex_mem {s v idx : List ℕ} (h : Broadcasts s v) (hi : InBounds v idx) : InBounds s (bcIndex s idx) := by
  obtain ⟨hl, h⟩ := h
  have hlen : idx.length = v.length := hi.length_eq
  have hd : InBounds (v.drop (v.length - s.length)) (idx.drop (idx.length - s.length)) := by
    rw [hlen]
    exact List.forall₂_drop _ hi
  unfold bcIndex
  generalize idx.drop (idx.length - s.length) = i at hd
  generalize v.drop (v.length - s.length) = w at hd h
  clear hl hi hlen
  induction h generalizing i with
  | nil => cases hd; simp [InBounds]
  | cons hab _ ih =>
    cases hd with
    | cons h1 h2 =>
      rw [List.zipWith_cons_cons]
      refine List.Forall₂.cons ?_ (ih _ h2)
      split_ifs with ha
      · omega
      · rcases hab with h | h
        · exact absurd h ha
        · omega

theorem fromPosition_ones (r : ℕ) : fromPosition (List.replicate r 1) 0 = List.replicate r 0 := by
  induction r with
  | zero => rfl
  | succ r ih => simp [List.replicate_succ, fromPosition, ih]

theorem fromPosition_set (r d n c : ℕ) (hd : d < r) (hc : c < n) : fromPosition ((List.replicate r 1).set d n) c = (List.replicate r 0).set d c := by
  induction r generalizing d with
  | zero => omega
  | succ r ih =>
    cases d with
    | zero =>
      simp only [List.replicate_succ, List.set_cons_zero, fromPosition, List.prod_replicate, one_pow, Nat.div_one, Nat.mod_one, fromPosition_ones]
    | succ d =>
      simp only [List.replicate_succ, List.set_cons_succ, fromPosition, ChannelScale.prod_set_one r d n (by omega)]
      rw [Nat.div_eq_of_lt hc, Nat.mod_eq_of_lt hc, ih d (by omega)]

theorem bcIndex_ones (r : ℕ) (idx : List ℕ) (h : r ≤ idx.length) : bcIndex (List.replicate r 1) idx = List.replicate r 0 := by
  have hl : (bcIndex (List.replicate r 1) idx).length = r := by simp [bcIndex]; omega
  apply List.ext_getElem
  · simp [hl]
  · intro i h1 h2
    simp [bcIndex]

theorem bcIndex_set (r d n : ℕ) (idx : List ℕ) (hd : d < r) (hl : idx.length = r) (hi : idx.getD d 0 < n) :
    bcIndex ((List.replicate r 1).set d n) idx = (List.replicate r 0).set d (idx.getD d 0) := by
  rw [bcIndex_same (by simp [hl])]
  apply List.ext_getElem
  · simp [hl]
  · intro i h1 h2
    simp only [List.length_set, List.length_replicate] at h2
    rw [List.getElem_zipWith, List.getElem_set, List.getElem_set]
    by_cases hid : d = i
    · subst hid
      have hg : idx.getD d 0 = idx[d] := List.getD_eq_getElem _ _ (by omega)
      simp only [if_true]
      by_cases h1 : n = 1
      · rw [if_pos h1]; omega
      · rw [if_neg h1, hg]
    · simp [hid]

/-- A sum of products of numbers that are integers times a common scale. -/
theorem sum_codes {α : Type*} (l : List α) (f : α → K) (g : α → ℤ) (s : K) (h : ∀ a ∈ l, f a = (g a : K) * s) :
    (l.map f).sum = (((l.map g).sum : ℤ) : K) * s := by
  induction l with
  | nil => simp
  | cons a l ih =>
    rw [List.map_cons, List.sum_cons, List.map_cons, List.sum_cons, h a (by simp), ih fun b hb => h b (by simp [hb])]
    push_cast; ring

/-- What the padded tensor contains, for a tensor of codes and the tensor it denotes. -/
theorem padZeros_codes (pads : List ℕ) (x : NdTensor K) (n : NdTensor ℤ) (sx : ℕ → K) (hs : n.shape = x.shape)
    (bt ch : ℕ) (sp : List ℕ) (hx : x.shape = bt :: ch :: sp) (hl : (padPairs pads).length = sp.length)
    (hc : ∀ b c p, InBounds x.shape (b :: c :: p) → x.data (b :: c :: p) = (n.data (b :: c :: p) : K) * sx c) :
    (padZeros pads n).shape = (padZeros pads x).shape ∧
    (∀ b c p, InBounds (padZeros pads x).shape (b :: c :: p) → (padZeros pads x).data (b :: c :: p) = ((padZeros pads n).data (b :: c :: p) : K) * sx c) ∧
    (∀ b c p, InBounds (padZeros pads x).shape (b :: c :: p) → (padZeros pads n).data (b :: c :: p) = 0 ∨
      ∃ p', InBounds x.shape (b :: c :: p') ∧ (padZeros pads n).data (b :: c :: p) = n.data (b :: c :: p')) := by
  have hl' : ((padPairs pads).reverse).length = sp.length := by simpa using hl
  have P := paddedBy_padZeros x bt ch sp pads hx hl'
  have Q := paddedBy_padZeros n bt ch sp pads (hs.trans hx) hl'
  have key : ∀ b c p, InBounds (padZeros pads x).shape (b :: c :: p) → (padZeros pads x).data (b :: c :: p) = ((padZeros pads n).data (b :: c :: p) : K) * sx c ∧
      ((padZeros pads n).data (b :: c :: p) = 0 ∨ ∃ p', InBounds x.shape (b :: c :: p') ∧ (padZeros pads n).data (b :: c :: p) = n.data (b :: c :: p')) := by
    intro b c p hp
    rw [P.shape] at hp
    obtain ⟨hb, hp⟩ := ChannelScale.inBounds_cons.1 hp
    obtain ⟨hcc, hp⟩ := ChannelScale.inBounds_cons.1 hp
    rw [P.data b c p hp, Q.data b c p hp]
    simp only [zeroRead, hs, hx, List.length_cons, List.length_nil, List.drop_succ_cons, List.drop_zero]
    generalize List.zipWith (fun (i : ℕ) (p : ℕ × ℕ) => (i : ℤ) - p.1) p (padPairs pads).reverse = q
    by_cases h : List.Forall₂ (fun (p : ℤ) (n : ℕ) => 0 ≤ p ∧ p < n) q sp
    · have hin : InBounds x.shape (b :: c :: q.map Int.toNat) := by
        rw [hx]
        refine List.Forall₂.cons hb (List.Forall₂.cons hcc ?_)
        rw [List.forall₂_map_left_iff]
        exact h.imp fun a b h => by omega
      rw [if_pos h, if_pos h]
      exact ⟨hc _ _ _ hin, Or.inr ⟨_, hx ▸ hin, rfl⟩⟩
    · rw [if_neg h, if_neg h]
      exact ⟨by simp, Or.inl rfl⟩
  exact ⟨by rw [P.shape, Q.shape], fun b c p h => (key b c p h).1, fun b c p h => (key b c p h).2⟩

/-- The taps of a window, as pairs of input channel (in the group) and kernel position. -/
def taps (cg : ℕ) (ks : List ℕ) : List (ℕ × List ℕ) := (List.range cg).flatMap fun ci => (indices ks).map fun t => (ci, t)

theorem indices_length (s : List ℕ) : (indices s).length = s.prod := by
  rw [← ChannelScale.map_fromPosition]; simp

theorem taps_length (cg : ℕ) (ks : List ℕ) : (taps cg ks).length = cg * ks.prod := by
  simp [taps, List.length_flatMap, indices_length]

theorem sum_taps {R : Type*} [CommRing R] (cg : ℕ) (ks : List ℕ) (f : ℕ → List ℕ → R) :
    ((List.range cg).map fun ci => ((indices ks).map fun t => f ci t).sum).sum = ((taps cg ks).map fun a => f a.1 a.2).sum := by
  unfold taps
  generalize List.range cg = l
  induction l with
  | nil => rfl
  | cons a l ih => simp [ih, Function.comp_def]

theorem mem_taps {cg : ℕ} {ks : List ℕ} {a : ℕ × List ℕ} : a ∈ taps cg ks ↔ a.1 < cg ∧ InBounds ks a.2 := by
  unfold taps
  simp only [List.mem_flatMap, List.mem_range, List.mem_map, mem_indices]
  constructor
  · rintro ⟨ci, h1, t, h2, rfl⟩; exact ⟨h1, h2⟩
  · rintro ⟨h1, h2⟩; exact ⟨a.1, h1, a.2, h2, rfl⟩

theorem group_lt {co out groups cg ci : ℕ} (hco : co < out) (hout : out % groups = 0) (hci : ci < cg) :
    co / (out / groups) * cg + ci < cg * groups := by
  have hpos : 0 < out / groups := by
    rcases Nat.eq_zero_or_pos (out / groups) with h | h
    · have := Nat.div_add_mod out groups
      rw [h, hout] at this
      omega
    · exact h
  have hlt : co / (out / groups) < groups := by
    rw [Nat.div_lt_iff_lt_mul hpos, Nat.mul_comm, Nat.div_mul_cancel (Nat.dvd_of_mod_eq_zero hout)]
    exact hco
  calc co / (out / groups) * cg + ci < co / (out / groups) * cg + cg := by omega
    _ = (co / (out / groups) + 1) * cg := by ring
    _ ≤ groups * cg := Nat.mul_le_mul_right _ hlt
    _ = cg * groups := Nat.mul_comm _ _

/-- A convolution of tensors that are codes times scales. `sx` is the scale of an input channel, `sx'` the common scale of the input channels that output channel
`co` reads, `sw` the scale of the weights of an output channel. -/
theorem convNd_codes (stride dilation : List ℕ) (groups : ℕ) (x w : NdTensor K) (n m : NdTensor ℤ) (sx sx' sw : ℕ → K) (bias : Option (List ℕ → K))
    (hn : n.shape = x.shape) (hm : m.shape = w.shape)
    (hx : ∀ b c p, InBounds x.shape (b :: c :: p) → x.data (b :: c :: p) = (n.data (b :: c :: p) : K) * sx c)
    (hw : ∀ o i, InBounds w.shape (o :: i) → w.data (o :: i) = (m.data (o :: i) : K) * sw o)
    (hg : ∀ out cg ks, w.shape = out :: cg :: ks → ∀ co < out, ∀ ci < cg, sx (co / (out / groups) * cg + ci) = sx' co)
    (ints : NdTensor ℤ) (h : convNd stride dilation groups n m none = some ints) :
    ∃ y, convNd stride dilation groups x w bias = some y ∧ y.shape = ints.shape ∧
      (∃ bt out cg ks sp, ints.shape = bt :: out :: sp ∧ w.shape = out :: cg :: ks ∧ sp.length + 2 = x.shape.length) ∧
      ∀ idx, InBounds y.shape idx → y.data idx = (ints.data idx : K) * (sw (idx.getD 1 0) * sx' (idx.getD 1 0)) + (bias.map fun b => b [idx.getD 1 0]).getD 0 := by
  unfold convNd at h ⊢
  rw [hn, hm] at h
  split at h
  · rename_i bt ch sp out cg ks hxs hws
    rw [hxs, hws]
    split at h
    · rename_i hcond
      rw [if_pos hcond]
      obtain ⟨h1, h2, h3, h4, h5, h6, h7, h8⟩ := hcond
      obtain rfl := Option.some.inj h
      refine ⟨_, rfl, rfl, ⟨bt, out, cg, ks, _, rfl, rfl, ?_⟩, ?_⟩
      · simp [zip4, h1, h2, h3]
      · intro idx hidx
        obtain ⟨b, co, o, rfl⟩ : ∃ b co o, idx = b :: co :: o := by
          cases hidx with
          | cons _ h => cases h with
            | cons _ _ => exact ⟨_, _, _, rfl⟩
        obtain ⟨hb, hidx⟩ := ChannelScale.inBounds_cons.1 hidx
        obtain ⟨hco, ho⟩ := ChannelScale.inBounds_cons.1 hidx
        simp only [convSum, List.getD_cons_succ, List.getD_cons_zero, List.drop_succ_cons, List.drop_zero, Option.map_none, Option.getD_none, add_zero]
        congr 1
        apply sum_codes
        intro ci hci
        rw [List.mem_range] at hci
        apply sum_codes
        intro t ht
        rw [mem_indices] at ht
        have hpos := tapPos_inBounds sp ks stride dilation o t h1 h2 h3 h7 h8 ho ht
        have hch := group_lt hco h6 hci
        rw [hw co (ci :: t) (by rw [hws]; exact List.Forall₂.cons hco (List.Forall₂.cons hci ht)),
          hx b _ _ (by rw [hxs]; exact List.Forall₂.cons hb (List.Forall₂.cons (by rw [h5]; exact hch) hpos)), hg out cg ks hws co hco ci hci]
        push_cast; ring
    · exact absurd h (by simp)
  · exact absurd h (by simp)

theorem padPairs_symPads (padding : List ℕ) : (padPairs (symPads padding)).length = padding.length := by
  unfold symPads
  rw [← List.length_reverse (as := padding)]
  generalize padding.reverse = l
  induction l with
  | nil => rfl
  | cons a l ih => simp [padPairs, ih]

theorem convPadNd_codes (stride padding dilation : List ℕ) (groups : ℕ) (x w : NdTensor K) (n m : NdTensor ℤ) (sx sx' sw : ℕ → K) (bias : Option (List ℕ → K))
    (hn : n.shape = x.shape) (hm : m.shape = w.shape)
    (hx : ∀ b c p, InBounds x.shape (b :: c :: p) → x.data (b :: c :: p) = (n.data (b :: c :: p) : K) * sx c)
    (hw : ∀ o i, InBounds w.shape (o :: i) → w.data (o :: i) = (m.data (o :: i) : K) * sw o)
    (hg : ∀ out cg ks, w.shape = out :: cg :: ks → ∀ co < out, ∀ ci < cg, sx (co / (out / groups) * cg + ci) = sx' co)
    (ints : NdTensor ℤ) (h : convPadNd stride padding dilation groups n m none = some ints) :
    ∃ y, convPadNd stride padding dilation groups x w bias = some y ∧ y.shape = ints.shape ∧
      (∃ bt out cg ks sp, ints.shape = bt :: out :: sp ∧ w.shape = out :: cg :: ks ∧ sp.length + 2 = x.shape.length) ∧
      ∀ idx, InBounds y.shape idx → y.data idx = (ints.data idx : K) * (sw (idx.getD 1 0) * sx' (idx.getD 1 0)) + (bias.map fun b => b [idx.getD 1 0]).getD 0 := by
  unfold convPadNd at h ⊢
  rw [hn] at h
  by_cases hl : padding.length + 2 = x.shape.length
  · rw [if_pos hl] at h ⊢
    obtain ⟨bt, ch, sp, hxs⟩ : ∃ bt ch sp, x.shape = bt :: ch :: sp := by
      match hs : x.shape with
      | [] => rw [hs] at hl; simp at hl
      | [_] => rw [hs] at hl; simp at hl
      | bt :: ch :: sp => exact ⟨_, _, _, rfl⟩
    have hpl : (padPairs (symPads padding)).length = sp.length := by
      rw [padPairs_symPads]; rw [hxs] at hl; simpa using hl
    obtain ⟨p1, p2, p3⟩ := padZeros_codes (symPads padding) x n sx hn bt ch sp hxs hpl hx
    obtain ⟨y, hy, hys, ⟨b', o', c', k', s', e1, e2, e3⟩, hyd⟩ :=
      convNd_codes stride dilation groups (padZeros (symPads padding) x) w (padZeros (symPads padding) n) m sx sx' sw bias p1 hm p2 hw hg ints h
    refine ⟨y, hy, hys, ⟨b', o', c', k', s', e1, e2, ?_⟩, hyd⟩
    rw [e3, (paddedBy_padZeros x bt ch sp (symPads padding) hxs (by simpa using hpl)).shape, hxs]
    simp [hpl]
  · rw [if_neg hl] at h; exact absurd h (by simp)

theorem linearNd_codes (x w : NdTensor K) (n m : NdTensor ℤ) (si : K) (sw : ℕ → K) (bias : Option (List ℕ → K)) (hn : n.shape = x.shape) (hm : m.shape = w.shape)
    (hx : ∀ idx, InBounds x.shape idx → x.data idx = (n.data idx : K) * si)
    (hw : ∀ o i, InBounds w.shape (o :: i) → w.data (o :: i) = (m.data (o :: i) : K) * sw o)
    (ints : NdTensor ℤ) (h : linearNd n m none = some ints) :
    ∃ y, linearNd x w bias = some y ∧ y.shape = ints.shape ∧ (∃ out k, ints.shape = x.shape.dropLast ++ [out] ∧ w.shape = [out, k] ∧ x.shape ≠ []) ∧
      ∀ idx, InBounds y.shape idx → y.data idx = (ints.data idx : K) * (sw (idx.getLastD 0) * si) + (bias.map fun b => b [idx.getLastD 0]).getD 0 := by
  unfold linearNd at h ⊢
  rw [hn, hm] at h
  split at h
  · rename_i out k hws
    rw [hws]
    by_cases hc : x.shape ≠ [] ∧ x.shape.getLastD 0 = k
    · rw [if_pos hc] at h ⊢
      obtain rfl := Option.some.inj h
      refine ⟨_, rfl, rfl, ⟨out, k, rfl, rfl, hc.1⟩, ?_⟩
      intro idx hidx
      simp only [Option.map_none, Option.getD_none, add_zero]
      congr 1
      apply sum_codes
      intro i hi
      rw [List.mem_range] at hi
      obtain ⟨l, a, rfl⟩ : ∃ l a, idx = l ++ [a] := by
        rcases List.eq_nil_or_concat idx with h | ⟨l, a, h⟩
        · subst h; have := hidx.length_eq; simp at this
        · exact ⟨l, a, by simpa using h⟩
      have hll : l.length = x.shape.dropLast.length := by have := hidx.length_eq; simpa using this
      have h1 : InBounds x.shape.dropLast l := by
        have := List.forall₂_take l.length hidx
        rw [List.take_left' rfl, List.take_left' hll.symm] at this
        exact this
      have h2 : a < out := by
        have := List.forall₂_drop l.length hidx
        rw [List.drop_left' rfl, List.drop_left' hll.symm] at this
        cases this with
        | cons h _ => exact h
      have hsplit : x.shape = x.shape.dropLast ++ [k] := by
        obtain ⟨hne, hlast⟩ := hc
        have h3 := List.dropLast_append_getLast hne
        have h4 : ∀ (l : List ℕ) (h : l ≠ []), l.getLast h = l.getLastD 0 := by
          intro l h
          rw [List.getLastD_eq_getLast?, List.getLast?_eq_some_getLast h]; rfl
        rw [h4, hlast] at h3
        exact h3.symm
      rw [List.dropLast_concat, hw _ _ (by rw [hws]; refine List.Forall₂.cons ?_ (List.Forall₂.cons hi List.Forall₂.nil); simpa using h2),
        hx _ (by rw [hsplit]; exact List.rel_append h1 (List.Forall₂.cons hi List.Forall₂.nil))]
      push_cast; ring
    · rw [if_neg hc] at h; exact absurd h (by simp)
  · exact absurd h (by simp)

theorem transposedSource_inBounds : ∀ (sp stride padding dilation o t pos : List ℕ), stride.length = sp.length → padding.length = sp.length →
    dilation.length = sp.length → o.length = sp.length → t.length = sp.length →
    transposedSource sp stride padding dilation o t = some pos → InBounds sp pos := by
  intro sp
  induction sp with
  | nil =>
    intro stride padding dilation o t pos _ _ _ _ _ h
    simp only [transposedSource] at h
    obtain rfl := Option.some.inj h
    exact List.Forall₂.nil
  | cons n sp ih =>
    intro stride padding dilation o t pos h1 h2 h3 h4 h5 h
    match stride, padding, dilation, o, t with
    | s :: stride, p :: padding, d :: dilation, o :: os, t :: ts =>
      simp only [List.length_cons, Nat.add_right_cancel_iff] at h1 h2 h3 h4 h5
      simp only [transposedSource] at h
      rw [Option.bind_eq_some_iff] at h
      obtain ⟨i, hi, h⟩ := h
      rw [Option.map_eq_some_iff] at h
      obtain ⟨is, his, rfl⟩ := h
      refine List.Forall₂.cons ?_ (ih _ _ _ _ _ _ h1 h2 h3 h4 h5 his)
      unfold transposedPos at hi
      split at hi
      · rename_i hc
        obtain rfl := Option.some.inj hi
        exact hc.2.2
      · simp at hi
    | [], _, _, _, _ => simp at h1
    | _ :: _, [], _, _, _ => simp at h2
    | _ :: _, _ :: _, [], _, _ => simp at h3
    | _ :: _, _ :: _, _ :: _, [], _ => simp at h4
    | _ :: _, _ :: _, _ :: _, _ :: _, [] => simp at h5

theorem transposedSizes_length : ∀ (sp ks stride padding outputPadding dilation : List ℕ), ks.length = sp.length → stride.length = sp.length →
    padding.length = sp.length → outputPadding.length = sp.length → dilation.length = sp.length →
    (transposedSizes sp ks stride padding outputPadding dilation).length = sp.length := by
  intro sp
  induction sp with
  | nil => intros; simp [transposedSizes]
  | cons n sp ih =>
    intro ks stride padding op dilation h1 h2 h3 h4 h5
    match ks, stride, padding, op, dilation with
    | k :: ks, s :: stride, p :: padding, q :: op, d :: dilation =>
      simp only [List.length_cons, Nat.add_right_cancel_iff] at h1 h2 h3 h4 h5
      simp [transposedSizes, ih _ _ _ _ _ h1 h2 h3 h4 h5]
    | [], _, _, _, _ => simp at h1
    | _ :: _, [], _, _, _ => simp at h2
    | _ :: _, _ :: _, [], _, _ => simp at h3
    | _ :: _, _ :: _, _ :: _, [], _ => simp at h4
    | _ :: _, _ :: _, _ :: _, _ :: _, [] => simp at h5

theorem convTransposeNd_codes (stride padding outputPadding dilation : List ℕ) (groups : ℕ) (x w : NdTensor K) (n m : NdTensor ℤ) (si : K) (sw : ℕ → K)
    (bias : Option (List ℕ → K)) (hn : n.shape = x.shape) (hm : m.shape = w.shape)
    (hx : ∀ idx, InBounds x.shape idx → x.data idx = (n.data idx : K) * si)
    (hw : ∀ i o t, InBounds w.shape (i :: o :: t) → w.data (i :: o :: t) = (m.data (i :: o :: t) : K) * sw o)
    (hper : groups = 1 ∨ ∀ c d, sw c = sw d)
    (ints : NdTensor ℤ) (h : convTransposeNd stride padding outputPadding dilation groups n m none = some ints) :
    ∃ y, convTransposeNd stride padding outputPadding dilation groups x w bias = some y ∧ y.shape = ints.shape ∧
      (∃ bt ci og ks sp, ints.shape = bt :: og * groups :: sp ∧ w.shape = ci :: og :: ks ∧ sp.length + 2 = x.shape.length) ∧
      ∀ idx, InBounds y.shape idx → y.data idx = (ints.data idx : K) * (sw (idx.getD 1 0) * si) + (bias.map fun b => b [idx.getD 1 0]).getD 0 := by
  unfold convTransposeNd at h ⊢
  rw [hn, hm] at h
  split at h
  · rename_i bt ch sp ci og ks hxs hws
    rw [hxs, hws]
    split at h
    · rename_i hcond
      rw [if_pos hcond]
      obtain ⟨h1, h2, h3, h4, h5, h6, h7, h8, h9⟩ := hcond
      obtain rfl := Option.some.inj h
      have hlen := transposedSizes_length sp ks stride padding outputPadding dilation h1.symm (by omega) (by omega) (by omega) (by omega)
      refine ⟨_, rfl, rfl, ⟨bt, ci, og, ks, _, rfl, rfl, by simp [hlen]⟩, ?_⟩
      intro idx hidx
      obtain ⟨b, co, o, rfl⟩ : ∃ b co o, idx = b :: co :: o := by
        cases hidx with
        | cons _ h => cases h with
          | cons _ _ => exact ⟨_, _, _, rfl⟩
      obtain ⟨hb, hidx⟩ := ChannelScale.inBounds_cons.1 hidx
      obtain ⟨hco, ho⟩ := ChannelScale.inBounds_cons.1 hidx
      simp only [List.getD_cons_succ, List.getD_cons_zero, List.drop_succ_cons, List.drop_zero, Option.map_none, Option.getD_none, add_zero]
      congr 1
      apply sum_codes
      intro j hj
      rw [List.mem_range] at hj
      apply sum_codes
      intro t ht
      rw [mem_indices] at ht
      have hog : 0 < og := by
        rcases Nat.eq_zero_or_pos og with h | h
        · rw [h] at hco; simp at hco
        · exact h
      have hgrp : co / og < groups := by rw [Nat.div_lt_iff_lt_mul hog, Nat.mul_comm]; exact hco
      have hch : co / og * (ch / groups) + j < ch := by
        calc co / og * (ch / groups) + j < co / og * (ch / groups) + ch / groups := by omega
          _ = (co / og + 1) * (ch / groups) := by ring
          _ ≤ groups * (ch / groups) := Nat.mul_le_mul_right _ hgrp
          _ = ch := Nat.mul_div_cancel' (Nat.dvd_of_mod_eq_zero h8)
      match hsrc : transposedSource sp stride padding dilation o t with
      | none => simp
      | some pos =>
        have hpos := transposedSource_inBounds sp stride padding dilation o t pos (by omega) (by omega) (by omega) (by rw [ho.length_eq, hlen])
          (by rw [ht.length_eq, h1]) hsrc
        have hswo : sw (co % og) = sw co := by
          rcases hper with hper | hper
          · subst hper
            rw [Nat.mul_one] at hco
            rw [Nat.mod_eq_of_lt hco]
          · exact hper _ _
        simp only [Option.map_some, Option.getD_some]
        rw [hw _ _ _ (by rw [hws]; exact List.Forall₂.cons (by rw [← h7]; exact hch) (List.Forall₂.cons (Nat.mod_lt _ hog) ht)),
          hx _ (by rw [hxs]; exact List.Forall₂.cons hb (List.Forall₂.cons hch hpos)), hswo]
        push_cast; ring
    · exact absurd h (by simp)
  · exact absurd h (by simp)

end QuantConv

end Brevitas
