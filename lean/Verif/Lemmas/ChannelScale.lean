import Verif.Model.ChannelScale
import Verif.Spec.Channel
import Verif.Lemmas.ShapedTensor
import Verif.Lemmas.Tensor
import Mathlib.Tactic.Ring
import Mathlib.Tactic.Linarith
import Mathlib.Data.List.Perm.Basic
import Mathlib.Data.List.Nodup

/-!
# Lemmas on the statistics of weights
-/

set_option linter.unusedSectionVars false

namespace Brevitas

namespace ChannelScale

open NdTensor

theorem range_mul (d P : ℕ) : List.range (d * P) = (List.range d).flatMap fun i => (List.range P).map fun j => i * P + j := by
  induction d with
  | zero => simp
  | succ d ih =>
    rw [List.range_succ, List.flatMap_append, ← ih, Nat.succ_mul, List.range_add]
    simp

theorem fromPosition_cons (d i j : ℕ) (ds : List ℕ) (hj : j < ds.prod) : fromPosition (d :: ds) (i * ds.prod + j) = i :: fromPosition ds j := by
  have hp : 0 < ds.prod := by omega
  show (i * ds.prod + j) / ds.prod :: fromPosition ds ((i * ds.prod + j) % ds.prod) = _
  rw [Nat.mul_comm, Nat.mul_add_div hp, Nat.div_eq_of_lt hj, Nat.mul_add_mod, Nat.mod_eq_of_lt hj]
  rfl

theorem map_fromPosition (s : List ℕ) : (List.range s.prod).map (fromPosition s) = indices s := by
  induction s with
  | nil => simp [fromPosition, indices]
  | cons d ds ih =>
    rw [List.prod_cons, range_mul, List.map_flatMap]
    unfold indices
    congr 1
    funext i
    rw [List.map_map, ← ih, List.map_map]
    apply List.map_congr_left
    intro j hj
    have hj' : j < ds.prod := List.mem_range.1 hj
    exact fromPosition_cons d i j ds hj'

theorem indices_nodup (s : List ℕ) : (indices s).Nodup := by
  induction s with
  | nil => simp [indices]
  | cons d ds ih =>
    unfold indices
    rw [List.nodup_flatMap]
    constructor
    · intro i _
      exact ih.map fun a b h => (List.cons.inj h).2
    · refine List.Pairwise.imp_of_mem ?_ List.nodup_range
      intro a b _ _ hab x hx hy
      rw [List.mem_map] at hx hy
      obtain ⟨_, _, rfl⟩ := hx
      obtain ⟨_, _, h⟩ := hy
      exact hab (List.cons.inj h).1.symm

theorem inBounds_cons {n c : ℕ} {rest is : List ℕ} : InBounds (n :: rest) (c :: is) ↔ c < n ∧ InBounds rest is := List.forall₂_cons

variable {K : Type*} [Zero K]

theorem reshape_rows (y : NdTensor K) (n : ℕ) (rest : List ℕ) (hy : y.shape = n :: rest) (hn : n ≠ 0) :
    ∃ t, y.reshape [n, (n :: rest).prod / n] = some t ∧ t.shape = [n, rest.prod] ∧
      ∀ i, row t i = (indices rest).map fun is => y.data (i :: is) := by
  have hp : (n :: rest).prod / n = rest.prod := by rw [List.prod_cons, Nat.mul_div_cancel_left _ (Nat.pos_of_ne_zero hn)]
  rw [hp]
  refine ⟨_, by unfold reshape; rw [if_pos (by rw [hy]; simp)], rfl, ?_⟩
  intro i
  unfold row
  show (List.range rest.prod).map (fun j => y.data (fromPosition y.shape (Spec.ravel [n, rest.prod] [i, j]))) = _
  rw [← map_fromPosition, List.map_map]
  apply List.map_congr_left
  intro j hj
  have hj' : j < rest.prod := List.mem_range.1 hj
  rw [hy]
  have h1 : Spec.ravel [n, rest.prod] [i, j] = i * rest.prod + j := by simp [Spec.ravel]
  rw [h1, fromPosition_cons n i j rest hj']
  rfl

theorem unorder_reorder {dims idx : List ℕ} (h : dims.Perm (List.range idx.length)) : unorder dims (reorder dims idx) = idx := by
  have hl : dims.length = idx.length := by simpa using h.length_eq
  apply ext_getD (by rw [unorder_length, hl])
  intro d hd
  rw [unorder_length] at hd
  obtain ⟨hi, hg⟩ := idxOf_lt_of_perm h (hl ▸ hd)
  rw [unorder_getD hd, reorder_getD hi, hg]

theorem reorder_inBounds {dims shape idx : List ℕ} (h : dims.Perm (List.range shape.length)) (hi : InBounds shape idx) :
    InBounds (reorder dims shape) (reorder dims idx) := by
  have hl := hi.length
  unfold reorder InBounds
  rw [List.forall₂_map_left_iff, List.forall₂_map_right_iff, List.forall₂_same]
  intro d hd
  have hd' : d < shape.length := List.mem_range.1 (h.mem_iff.1 hd)
  have := Spec.InRange
  have hr := (inBounds_iff_inRange shape idx).1 hi
  exact InRange.get hr d (hl ▸ hd')

/-- The elements of a channel, after a permutation that puts the dimension of the channels first. -/
theorem permuted_channel {dims shape rest : List ℕ} {n d c : ℕ} (h : dims.Perm (List.range shape.length)) (hd0 : dims.getD 0 0 = d) (hd : d < shape.length)
    (hs : reorder dims shape = n :: rest) (hc : c < n) :
    ((indices rest).map fun is => unorder dims (c :: is)).Perm ((indices shape).filter fun idx => idx.getD d 0 = c) := by
  have hl : dims.length = shape.length := by simpa using h.length_eq
  have hnd : dims.Nodup := h.nodup_iff.2 List.nodup_range
  have hpos : 0 < dims.length := by omega
  have hidx : dims.idxOf d = 0 := by
    cases dims with
    | nil => simp at hpos
    | cons a l =>
      simp only [List.getD_cons_zero] at hd0
      subst hd0
      simp
  have hrl : rest.length + 1 = shape.length := by
    have := congrArg List.length hs
    simp only [reorder, List.length_map, List.length_cons] at this
    omega
  apply (List.perm_ext_iff_of_nodup ?_ ?_).2
  · intro idx
    rw [List.mem_map, List.mem_filter, mem_indices, decide_eq_true_eq]
    constructor
    · rintro ⟨is, his, rfl⟩
      rw [mem_indices] at his
      refine ⟨unorder_inBounds h ?_, ?_⟩
      · rw [hs]; exact inBounds_cons.2 ⟨hc, his⟩
      · rw [unorder_getD (by omega), hidx]; rfl
    · rintro ⟨hb, hcc⟩
      have hb' := reorder_inBounds h hb
      rw [hs] at hb'
      have hil : idx.length = shape.length := hb.length
      have hro : (reorder dims idx).getD 0 0 = c := by
        rw [reorder_getD hpos]
        have : dims[0] = d := by rw [← hd0, List.getD_eq_getElem _ _ hpos]
        rw [this, hcc]
      cases hr : reorder dims idx with
      | nil => rw [hr] at hb'; cases hb'
      | cons a is =>
        rw [hr] at hb' hro
        simp only [List.getD_cons_zero] at hro
        subst hro
        refine ⟨is, (mem_indices _ _).2 (inBounds_cons.1 hb').2, ?_⟩
        rw [← hr]
        exact unorder_reorder (hil.symm ▸ h)
  · apply (indices_nodup rest).map_on
    intro a ha b hb hab
    rw [mem_indices] at ha hb
    have hal := ha.length
    have hbl := hb.length
    apply ext_getD (by omega)
    intro e he
    have he' : e + 1 < dims.length := by omega
    have hm : dims[e + 1] < dims.length := by
      have : dims[e + 1] ∈ List.range shape.length := h.mem_iff.1 (List.getElem_mem he')
      rw [List.mem_range] at this
      omega
    have key := congrArg (fun l => l.getD dims[e + 1] 0) hab
    rw [unorder_getD hm, unorder_getD hm, hnd.idxOf_getElem] at key
    simpa using key
  · exact (indices_nodup shape).filter _

theorem unorder_range {n : ℕ} {idx : List ℕ} (h : idx.length = n) : unorder (List.range n) idx = idx := by
  apply ext_getD (by rw [unorder_length]; simp [h])
  intro d hd
  rw [unorder_length] at hd
  rw [unorder_getD hd]
  congr 1
  have hd' : d < n := by simpa using hd
  have := List.nodup_range (n := n) |>.idxOf_getElem d (by simpa using hd')
  simpa using this

theorem reorder_range (l : List ℕ) : reorder (List.range l.length) l = l := by
  apply ext_getD (by simp [reorder])
  intro d hd
  have hd' : d < l.length := by simpa [reorder] using hd
  rw [reorder_getD (by simpa using hd')]
  simp

/-- The view used for a scale per channel: one row per channel, with the elements of that channel in some order. -/
theorem view_rows (t : NdTensor K) (d : ℕ) (hd : d < t.shape.length) (hn : t.shape.getD d 0 ≠ 0) :
    ∃ v, overOutputChannelView (permuteDims t.shape.length d) t = some v ∧ (∃ p, v.shape = [t.shape.getD d 0, p]) ∧
      ∀ c, c < t.shape.getD d 0 → (row v c).Perm (t.channelElems d c) := by
  have hpos : 0 < t.shape.length := by omega
  by_cases h0 : d = 0
  · subst h0
    cases hs : t.shape with
    | nil => rw [hs] at hpos; simp at hpos
    | cons n rest =>
      rw [hs] at hn
      simp only [List.getD_cons_zero] at hn
      obtain ⟨v, hv, hvs, hrow⟩ := reshape_rows t n rest hs hn
      refine ⟨v, ?_, ⟨rest.prod, by simpa using hvs⟩, ?_⟩
      · simp only [overOutputChannelView, permuteDims, ne_eq, not_true_eq_false, if_false, Option.bind_eq_bind, Option.bind_some]
        rw [hs]
        simp only
        rw [if_neg hn]
        exact hv
      · intro c hc
        simp only [List.getD_cons_zero] at hc
        rw [hrow]
        unfold channelElems
        rw [hs]
        have hp := permuted_channel (dims := List.range (n :: rest).length) (shape := n :: rest) (rest := rest) (n := n) (d := 0) (c := c)
          (List.Perm.refl _) (by simp) (by simp) (reorder_range _) hc
        have := hp.map t.data
        rw [List.map_map] at this
        refine List.Perm.trans (List.Perm.of_eq ?_) this
        apply List.map_congr_left
        intro is his
        rw [mem_indices] at his
        show _ = t.data (unorder _ _)
        rw [unorder_range (by simp [his.length])]
  · have hperm := swapDims_perm (n := t.shape.length) (i := 0) (j := d) hpos hd
    have hlen : (swapDims t.shape.length 0 d).length = t.shape.length := by simp [swapDims]
    have hd0 : (swapDims t.shape.length 0 d).getD 0 0 = d := by
      rw [List.getD_eq_getElem _ _ (by omega)]
      simp [swapDims]
    cases hs : reorder (swapDims t.shape.length 0 d) t.shape with
    | nil =>
      have := congrArg List.length hs
      simp only [reorder, List.length_map, List.length_nil] at this
      omega
    | cons n rest =>
      have hnn : n = t.shape.getD d 0 := by
        have h1 := congrArg (fun l => l.getD 0 0) hs
        simp only [List.getD_cons_zero] at h1
        rw [← h1, reorder_getD (by omega)]
        congr 1
        simp [swapDims]
      obtain ⟨v, hv, hvs, hrow⟩ := reshape_rows (⟨n :: rest, fun idx => t.data (unorder (swapDims t.shape.length 0 d) idx)⟩ : NdTensor K) n rest rfl
        (hnn ▸ hn)
      refine ⟨v, ?_, ⟨rest.prod, hnn ▸ hvs⟩, ?_⟩
      · simp only [overOutputChannelView, permuteDims, ne_eq, h0, not_false_eq_true, if_true, permute, if_pos hperm, Option.bind_eq_bind, Option.bind_some, hs]
        rw [if_neg (hnn ▸ hn)]
        exact hv
      · intro c hc
        rw [hrow]
        unfold channelElems
        have := (permuted_channel hperm hd0 hd hs (hnn ▸ hc)).map t.data
        rw [List.map_map] at this
        exact this

/-- Concatenation of two tensors of rank 2 along the second dimension: row by row. -/
theorem cat_rows (a b : NdTensor K) (n p q : ℕ) (ha : a.shape = [n, p]) (hb : b.shape = [n, q]) :
    ∃ t, NdTensor.cat 1 [a, b] = some t ∧ t.shape = [n, p + q] ∧ ∀ i, i < n → row t i = row a i ++ row b i := by
  have hdim : dimOf a.shape.length 1 = some 1 := by rw [ha]; rfl
  have hsz : size 1 a = p := by simp [size, ha]
  have hszb : size 1 b = q := by simp [size, hb]
  have hcond : ∀ u ∈ [a, b], u.shape.set 1 0 = a.shape.set 1 0 := by
    intro u hu
    simp only [List.mem_cons, List.not_mem_nil, or_false] at hu
    rcases hu with rfl | rfl
    · rfl
    · rw [ha, hb]; rfl
  refine ⟨_, by simp only [NdTensor.cat, hdim]; rw [if_pos hcond], ?_, ?_⟩
  · simp [ha, hsz, hszb]
  · intro i hi
    have hsh : a.shape.set 1 (List.map (size 1) [a, b]).sum = [n, p + q] := by simp [ha, hsz, hszb]
    unfold row
    simp only [hsh]
    simp only [ha, hb]
    simp only [List.getD_cons_succ, List.getD_cons_zero]
    rw [List.range_add, List.map_append, List.map_map]
    congr 1
    · apply List.map_congr_left
      intro j hj
      have hj' : j < p := List.mem_range.1 hj
      have hin : InBounds [n, p + q] [i, j] := by
        refine inBounds_cons.2 ⟨hi, inBounds_cons.2 ⟨by omega, List.Forall₂.nil⟩⟩
      rw [if_pos hin]
      simp [pick, hsz, hj']
    · apply List.map_congr_left
      intro j hj
      have hj' : j < q := List.mem_range.1 hj
      have hin : InBounds [n, p + q] [i, p + j] := by
        refine inBounds_cons.2 ⟨hi, inBounds_cons.2 ⟨by omega, List.Forall₂.nil⟩⟩
      simp only [Function.comp]
      rw [if_pos hin]
      simp [pick, hsz, hszb, hj']

/-- Elements of a tensor of rank 1. -/
def flat (t : NdTensor K) : List K := (List.range (t.shape.getD 0 0)).map fun j => t.data [j]

theorem cat_flat (a b : NdTensor K) (p q : ℕ) (ha : a.shape = [p]) (hb : b.shape = [q]) :
    ∃ t, NdTensor.cat 0 [a, b] = some t ∧ t.shape = [p + q] ∧ flat t = flat a ++ flat b := by
  have hdim : dimOf a.shape.length 0 = some 0 := by rw [ha]; rfl
  have hsz : size 0 a = p := by simp [size, ha]
  have hszb : size 0 b = q := by simp [size, hb]
  have hcond : ∀ u ∈ [a, b], u.shape.set 0 0 = a.shape.set 0 0 := by
    intro u hu
    simp only [List.mem_cons, List.not_mem_nil, or_false] at hu
    rcases hu with rfl | rfl
    · rfl
    · rw [ha, hb]; rfl
  refine ⟨_, by simp only [NdTensor.cat, hdim]; rw [if_pos hcond], ?_, ?_⟩
  · simp [ha, hsz, hszb]
  · have hsh : a.shape.set 0 (List.map (size 0) [a, b]).sum = [p + q] := by simp [ha, hsz, hszb]
    unfold flat
    simp only [hsh]
    simp only [ha, hb]
    simp only [List.getD_cons_zero]
    rw [List.range_add, List.map_append, List.map_map]
    congr 1
    · apply List.map_congr_left
      intro j hj
      have hj' : j < p := List.mem_range.1 hj
      have hin : InBounds [p + q] [j] := inBounds_cons.2 ⟨by omega, List.Forall₂.nil⟩
      rw [if_pos hin]
      simp [pick, hsz, hj']
    · apply List.map_congr_left
      intro j hj
      have hj' : j < q := List.mem_range.1 hj
      have hin : InBounds [p + q] [p + j] := inBounds_cons.2 ⟨by omega, List.Forall₂.nil⟩
      simp only [Function.comp]
      rw [if_pos hin]
      simp [pick, hsz, hszb, hj']

theorem view_flat (t : NdTensor K) : ∃ v, overTensorView t = some v ∧ (∃ p, v.shape = [p]) ∧ flat v = t.elems := by
  refine ⟨_, by unfold overTensorView reshape; rw [if_pos (by simp)], ⟨_, rfl⟩, ?_⟩
  unfold flat elems
  rw [← map_fromPosition, List.map_map]
  simp only [List.getD_cons_zero]
  apply List.map_congr_left
  intro j _
  simp [Spec.ravel]

/-- Rows after every tracked parameter has been put in. -/
theorem statsInput_rows (d n : ℕ) (hn : n ≠ 0) (first : NdTensor K) (extra : List (NdTensor K))
    (hd : d < first.shape.length) (hc : first.shape.getD d 0 = n)
    (hex : ∀ t ∈ extra, t.shape.length = first.shape.length ∧ t.shape.getD d 0 = n) :
    ∃ x, statsInput (overOutputChannelView (permuteDims first.shape.length d)) 1 (first :: extra) = some x ∧ x.shape.getD 0 0 = n ∧
      (∃ p, x.shape = [n, p]) ∧ ∀ c, c < n → (row x c).Perm ((first :: extra).flatMap (channelElems d c)) := by
  have main : ∀ (extra done : List (NdTensor K)) (x : NdTensor K), (∀ t ∈ extra, t.shape.length = first.shape.length ∧ t.shape.getD d 0 = n) →
      (∃ p, x.shape = [n, p]) → (∀ c, c < n → (row x c).Perm (done.flatMap (channelElems d c))) →
      ∃ y, extra.foldlM (fun x p => do
          let v ← overOutputChannelView (permuteDims first.shape.length d) p
          NdTensor.cat 1 [v, x]) x = some y ∧ (∃ p, y.shape = [n, p]) ∧
        ∀ c, c < n → (row y c).Perm ((done ++ extra).flatMap (channelElems d c)) := by
    intro extra
    induction extra with
    | nil => intro done x _ hx hr; exact ⟨x, rfl, hx, by simpa using hr⟩
    | cons t ts ih =>
      intro done x ht hx hr
      obtain ⟨htl, htd⟩ := ht t (by simp)
      obtain ⟨v, hv, ⟨p, hvs⟩, hvr⟩ := view_rows t d (by omega) (by omega)
      rw [htl] at hv
      rw [htd] at hvs hvr
      obtain ⟨q, hxq⟩ := hx
      obtain ⟨y, hy, hys, hyr⟩ := cat_rows v x n p q hvs hxq
      obtain ⟨z, hz, hzs, hzr⟩ := ih (done ++ [t]) y (fun u hu => ht u (List.mem_cons_of_mem _ hu)) ⟨_, hys⟩ (by
        intro c hc
        rw [hyr c hc, List.flatMap_append]
        refine List.Perm.trans List.perm_append_comm ?_
        refine List.Perm.append (hr c hc) ?_
        simpa using hvr c hc)
      refine ⟨z, ?_, hzs, by simpa using hzr⟩
      rw [List.foldlM_cons]
      simp only [hv, Option.bind_eq_bind, Option.bind_some, hy]
      exact hz
  obtain ⟨v, hv, ⟨p, hvs⟩, hvr⟩ := view_rows first d hd (hc ▸ hn)
  rw [hc] at hvs hvr
  obtain ⟨y, hy, ⟨q, hys⟩, hyr⟩ := main extra [first] v hex ⟨p, hvs⟩ (by intro c hcc; simpa using hvr c hcc)
  refine ⟨y, ?_, by rw [hys]; rfl, ⟨q, hys⟩, by simpa using hyr⟩
  simp only [statsInput, hv, Option.bind_eq_bind, Option.bind_some]
  exact hy

theorem statsInput_flat (first : NdTensor K) (extra : List (NdTensor K)) :
    ∃ x, statsInput overTensorView 0 (first :: extra) = some x ∧ (∃ p, x.shape = [p]) ∧ (flat x).Perm ((first :: extra).flatMap elems) := by
  have main : ∀ (extra done : List (NdTensor K)) (x : NdTensor K), (∃ p, x.shape = [p]) → ((flat x).Perm (done.flatMap elems)) →
      ∃ y, extra.foldlM (fun x p => do
          let v ← overTensorView p
          NdTensor.cat 0 [v, x]) x = some y ∧ (∃ p, y.shape = [p]) ∧ (flat y).Perm ((done ++ extra).flatMap elems) := by
    intro extra
    induction extra with
    | nil => intro done x hx hr; exact ⟨x, rfl, hx, by simpa using hr⟩
    | cons t ts ih =>
      intro done x hx hr
      obtain ⟨v, hv, ⟨p, hvs⟩, hvr⟩ := view_flat t
      obtain ⟨q, hxq⟩ := hx
      obtain ⟨y, hy, hys, hyr⟩ := cat_flat v x p q hvs hxq
      obtain ⟨z, hz, hzs, hzr⟩ := ih (done ++ [t]) y ⟨_, hys⟩ (by
        rw [hyr, List.flatMap_append]
        refine List.Perm.trans List.perm_append_comm ?_
        refine List.Perm.append hr ?_
        rw [hvr]; simp)
      refine ⟨z, ?_, hzs, by simpa using hzr⟩
      rw [List.foldlM_cons]
      simp only [hv, Option.bind_eq_bind, Option.bind_some, hy]
      exact hz
  obtain ⟨v, hv, ⟨p, hvs⟩, hvr⟩ := view_flat first
  obtain ⟨y, hy, hys, hyr⟩ := main extra [first] v ⟨p, hvs⟩ (by rw [hvr]; simp)
  refine ⟨y, ?_, hys, by simpa using hyr⟩
  simp only [statsInput, hv, Option.bind_eq_bind, Option.bind_some]
  exact hy

theorem prod_set_one (r d n : ℕ) (hd : d < r) : ((List.replicate r 1).set d n).prod = n := by
  induction r generalizing d with
  | zero => omega
  | succ r ih =>
    cases d with
    | zero => simp [List.replicate_succ]
    | succ d => simp [List.replicate_succ, ih d (by omega)]

theorem ravel_bcIndex (r d n : ℕ) (idx : List ℕ) (hd : d < r) (hl : idx.length = r) (hi : idx.getD d 0 < n) :
    Spec.ravel ((List.replicate r 1).set d n) (bcIndex ((List.replicate r 1).set d n) idx) = idx.getD d 0 := by
  rw [bcIndex_same (by simp [hl])]
  have zero : ∀ (r : ℕ) (idx : List ℕ), idx.length = r →
      Spec.ravel (List.replicate r 1) (List.zipWith (fun d i => if d = 1 then 0 else i) (List.replicate r 1) idx) = 0 := by
    intro r
    induction r with
    | zero => intro idx _; rfl
    | succ r ih =>
      intro idx h
      cases idx with
      | nil => simp at h
      | cons a l =>
        simp only [List.length_cons, Nat.add_right_cancel_iff] at h
        rw [List.replicate_succ, List.zipWith_cons_cons, ravel_cons _ _ _ _ (by simp [h]), ih l h]
        simp
  induction r generalizing d idx with
  | zero => omega
  | succ r ih =>
    cases idx with
    | nil => simp at hl
    | cons a l =>
      simp only [List.length_cons, Nat.add_right_cancel_iff] at hl
      cases d with
      | zero =>
        simp only [List.getD_cons_zero] at hi ⊢
        rw [List.replicate_succ, List.set_cons_zero, List.zipWith_cons_cons, ravel_cons _ _ _ _ (by simp [hl]), zero r l hl]
        by_cases h1 : n = 1
        · rw [if_pos h1]; simp; omega
        · rw [if_neg h1]; simp
      | succ d =>
        simp only [List.getD_cons_succ] at hi ⊢
        rw [List.replicate_succ, List.set_cons_succ, List.zipWith_cons_cons, ravel_cons _ _ _ _ (by simp [hl])]
        rw [ih d l (by omega) hl hi]
        simp

theorem broadcasts_channel (v : List ℕ) (d : ℕ) : Broadcasts ((List.replicate v.length 1).set d (v.getD d 0)) v := by
  refine ⟨by simp, ?_⟩
  simp only [List.length_set, List.length_replicate, Nat.sub_self, List.drop_zero]
  have one : ∀ v : List ℕ, List.Forall₂ (fun a b => a = 1 ∨ a = b) (List.replicate v.length 1) v := by
    intro v
    induction v with
    | nil => simp
    | cons a l ih => simp only [List.length_cons, List.replicate_succ]; exact List.Forall₂.cons (Or.inl rfl) ih
  induction v generalizing d with
  | nil => simp
  | cons a l ih =>
    simp only [List.length_cons, List.replicate_succ]
    cases d with
    | zero => simp only [List.set_cons_zero, List.getD_cons_zero]; exact List.Forall₂.cons (Or.inr rfl) (one l)
    | succ d => simp only [List.set_cons_succ, List.getD_cons_succ]; exact List.Forall₂.cons (Or.inl rfl) (ih d)

end ChannelScale

end Brevitas

namespace Brevitas

namespace ChannelScale

open NdTensor

variable {K : Type*} [Field K] [LinearOrder K] [IsStrictOrderedRing K] [FloorRing K]

theorem foldl_max_eq_of_nonneg (l : List K) (a : K) (ha : 0 ≤ a) : l.foldl max a = max a (l.foldl max 0) := by
  induction l generalizing a with
  | nil => simp [ha]
  | cons b l ih =>
    simp only [List.foldl_cons]
    rw [ih (max a b) (le_max_of_le_left ha), ih (max 0 b) (le_max_left _ _)]
    rw [← max_assoc, ← max_assoc]
    rw [max_eq_left ha]

theorem absMax_eq {l : List K} (h : l ≠ []) : absMax l = some (maxAbs l) := by
  cases l with
  | nil => exact absurd rfl h
  | cons a t =>
    simp only [absMax, List.map_cons, torchMax, maxAbs, List.foldl_cons]
    rw [max_eq_right (abs_nonneg a)]

theorem maxAbs_perm {l l' : List K} (h : l.Perm l') : maxAbs l = maxAbs l' := by
  unfold maxAbs
  exact (h.map _).foldl_eq 0

theorem maxAbs_spec {l : List K} : (∀ x ∈ l, |x| ≤ maxAbs l) ∧ (l ≠ [] → ∃ x ∈ l, |x| = maxAbs l) := by
  constructor
  · intro x hx
    exact (le_foldl_max (l.map fun x => |x|) 0).2 _ (List.mem_map_of_mem hx)
  · intro hne
    rcases foldl_max_mem (l.map fun x => |x|) (0 : K) with h | h
    · cases l with
      | nil => exact absurd rfl hne
      | cons a t =>
        refine ⟨a, by simp, ?_⟩
        have h1 := (le_foldl_max ((a :: t).map fun x => |x|) (0 : K)).2 |a| (by simp)
        rw [h] at h1
        have h2 : |a| = 0 := le_antisymm h1 (abs_nonneg a)
        rw [h2]
        exact h.symm
    · rw [List.mem_map] at h
      obtain ⟨x, hx, he⟩ := h
      exact ⟨x, hx, he⟩

theorem absMax_orderFree : OrderFree (absMax (K := K)) := by
  intro l l' h
  by_cases hl : l = []
  · subst hl; rw [List.nil_perm.1 h]
  · have hl' : l' ≠ [] := fun e => hl (List.perm_nil.1 (e ▸ h))
    rw [absMax_eq hl, absMax_eq hl', maxAbs_perm h]

theorem cat_rows0 (a b : NdTensor K) (n m p : ℕ) (ha : a.shape = [n, p]) (hb : b.shape = [m, p]) :
    ∃ t, NdTensor.cat 0 [a, b] = some t ∧ t.shape = [n + m, p] ∧ (List.range (n + m)).map (row t) = (List.range n).map (row a) ++ (List.range m).map (row b) := by
  have hdim : dimOf a.shape.length 0 = some 0 := by rw [ha]; rfl
  have hsz : size 0 a = n := by simp [size, ha]
  have hszb : size 0 b = m := by simp [size, hb]
  have hcond : ∀ u ∈ [a, b], u.shape.set 0 0 = a.shape.set 0 0 := by
    intro u hu
    simp only [List.mem_cons, List.not_mem_nil, or_false] at hu
    rcases hu with rfl | rfl
    · rfl
    · rw [ha, hb]; rfl
  refine ⟨_, by simp only [NdTensor.cat, hdim]; rw [if_pos hcond], ?_, ?_⟩
  · simp [ha, hsz, hszb]
  · have hsh : a.shape.set 0 (List.map (size 0) [a, b]).sum = [n + m, p] := by simp [ha, hsz, hszb]
    simp only [hsh]
    rw [List.range_add, List.map_append, List.map_map]
    congr 1
    · apply List.map_congr_left
      intro i hi
      have hi' : i < n := List.mem_range.1 hi
      unfold row
      simp only [ha, List.getD_cons_succ, List.getD_cons_zero]
      apply List.map_congr_left
      intro j hj
      have hj' : j < p := List.mem_range.1 hj
      have hin : InBounds [n + m, p] [i, j] := inBounds_cons.2 ⟨by omega, inBounds_cons.2 ⟨hj', List.Forall₂.nil⟩⟩
      rw [if_pos hin]
      simp [pick, hsz, hi']
    · apply List.map_congr_left
      intro i hi
      have hi' : i < m := List.mem_range.1 hi
      unfold row
      simp only [hb, List.getD_cons_succ, List.getD_cons_zero, Function.comp]
      apply List.map_congr_left
      intro j hj
      have hj' : j < p := List.mem_range.1 hj
      have hin : InBounds [n + m, p] [n + i, j] := inBounds_cons.2 ⟨by omega, inBounds_cons.2 ⟨hj', List.Forall₂.nil⟩⟩
      rw [if_pos hin]
      simp [pick, hsz, hszb, hi']

theorem view_shape (t : NdTensor K) (d : ℕ) (hd : d < t.shape.length) (hn : t.shape.getD d 0 ≠ 0) (v : NdTensor K)
    (hv : overOutputChannelView (permuteDims t.shape.length d) t = some v) : v.shape = [t.shape.getD d 0, fanIn d t] := by
  have hpos : 0 < t.shape.length := by omega
  unfold overOutputChannelView permuteDims at hv
  by_cases h0 : d = 0
  · subst h0
    simp only [ne_eq, not_true_eq_false, if_false, Option.bind_eq_bind, Option.bind_some] at hv
    cases hs : t.shape with
    | nil => rw [hs] at hpos; simp at hpos
    | cons n rest =>
      rw [hs] at hv hn
      simp only [List.getD_cons_zero] at hn
      simp only [if_neg hn, reshape] at hv
      split at hv
      · rw [← Option.some.inj hv]; simp [fanIn, hs]
      · cases hv
  · have hperm := swapDims_perm (n := t.shape.length) (i := 0) (j := d) hpos hd
    simp only [ne_eq, h0, not_false_eq_true, if_true, permute, if_pos hperm, Option.bind_eq_bind, Option.bind_some] at hv
    have hprod : (reorder (swapDims t.shape.length 0 d) t.shape).prod = t.shape.prod := by
      unfold reorder
      rw [(hperm.map fun d => t.shape.getD d 0).prod_eq]
      congr 1
      apply ext_getD (by simp)
      intro e he
      have he' : e < t.shape.length := by simpa using he
      simp [List.getD_eq_getElem?_getD, he']
    cases hs : reorder (swapDims t.shape.length 0 d) t.shape with
    | nil =>
      have := congrArg List.length hs
      simp only [reorder, List.length_map, List.length_nil, swapDims, List.length_range] at this
      omega
    | cons n rest =>
      have hnn : n = t.shape.getD d 0 := by
        have h1 := congrArg (fun l => l.getD 0 0) hs
        simp only [List.getD_cons_zero] at h1
        rw [← h1, reorder_getD (by simp [swapDims]; omega)]
        congr 1
        simp [swapDims]
      rw [hs] at hprod
      simp only [hs, if_neg (hnn ▸ hn : n ≠ 0), reshape] at hv
      split at hv
      · rw [← Option.some.inj hv]
        simp only [fanIn, ← hprod, hnn]
      · cases hv

/-- Rows after every tracked parameter has been put in, with concatenation along the first dimension. -/
theorem statsInput_rows0 (d p : ℕ) (first : NdTensor K) (extra : List (NdTensor K))
    (hall : ∀ t ∈ first :: extra, t.shape.length = first.shape.length ∧ d < t.shape.length ∧ t.shape.getD d 0 ≠ 0 ∧ fanIn d t = p) :
    ∃ x R, statsInput (overOutputChannelView (permuteDims first.shape.length d)) 0 (first :: extra) = some x ∧
      (List.range (x.shape.getD 0 0)).map (row x) = R ∧
      (R.map maxAbs).Perm (((first :: extra).flatMap (channels d)).map maxAbs) ∧ ∀ r ∈ R, r.length = p := by
  have rowsOf : ∀ t : NdTensor K, d < t.shape.length → t.shape.getD d 0 ≠ 0 → ∃ v, overOutputChannelView (permuteDims t.shape.length d) t = some v ∧
      v.shape = [t.shape.getD d 0, fanIn d t] ∧ ((List.range (t.shape.getD d 0)).map (row v)).map maxAbs = (channels d t).map maxAbs := by
    intro t htd htn
    obtain ⟨v, hv, _, hvr⟩ := view_rows t d htd htn
    refine ⟨v, hv, view_shape t d htd htn v hv, ?_⟩
    unfold channels
    rw [List.map_map, List.map_map]
    apply List.map_congr_left
    intro c hc
    exact maxAbs_perm (hvr c (List.mem_range.1 hc))
  have main : ∀ (extra done : List (NdTensor K)) (x : NdTensor K) (n : ℕ),
      (∀ t ∈ extra, t.shape.length = first.shape.length ∧ d < t.shape.length ∧ t.shape.getD d 0 ≠ 0 ∧ fanIn d t = p) →
      x.shape = [n, p] → (((List.range n).map (row x)).map maxAbs).Perm ((done.flatMap (channels d)).map maxAbs) →
      ∃ y m, extra.foldlM (fun x p => do
          let v ← overOutputChannelView (permuteDims first.shape.length d) p
          NdTensor.cat 0 [v, x]) x = some y ∧ y.shape = [m, p] ∧
        (((List.range m).map (row y)).map maxAbs).Perm (((done ++ extra).flatMap (channels d)).map maxAbs) := by
    intro extra
    induction extra with
    | nil => intro done x n _ hx hr; exact ⟨x, n, rfl, hx, by simpa using hr⟩
    | cons t ts ih =>
      intro done x n ht hx hr
      obtain ⟨htl, htd, htn, htp⟩ := ht t (by simp)
      obtain ⟨v, hv, hvs, hvr⟩ := rowsOf t htd htn
      rw [htl] at hv
      rw [htp] at hvs
      obtain ⟨y, hy, hys, hyr⟩ := cat_rows0 v x _ n p hvs hx
      obtain ⟨z, m, hz, hzs, hzr⟩ := ih (done ++ [t]) y _ (fun u hu => ht u (List.mem_cons_of_mem _ hu)) hys (by
        rw [hyr, List.map_append, List.flatMap_append, List.map_append, hvr]
        refine List.Perm.trans List.perm_append_comm ?_
        refine List.Perm.append hr ?_
        simp)
      refine ⟨z, m, ?_, hzs, by simpa using hzr⟩
      rw [List.foldlM_cons]
      simp only [hv, Option.bind_eq_bind, Option.bind_some, hy]
      exact hz
  obtain ⟨_, hfd, hfn, hfp⟩ := hall first (by simp)
  obtain ⟨v, hv, hvs, hvr⟩ := rowsOf first hfd hfn
  rw [hfp] at hvs
  obtain ⟨y, m, hy, hys, hyr⟩ := main extra [first] v _ (fun t ht => hall t (List.mem_cons_of_mem _ ht)) hvs (by rw [hvr]; simp)
  refine ⟨y, _, ?_, rfl, by rw [hys]; simpa using hyr, ?_⟩
  · simp only [statsInput, hv, Option.bind_eq_bind, Option.bind_some]
    exact hy
  · intro r hr
    rw [List.mem_map] at hr
    obtain ⟨i, _, rfl⟩ := hr
    simp [row, hys]

theorem mapM_absMax {R : List (List K)} (h : ∀ r ∈ R, r ≠ []) : R.mapM absMax = some (R.map maxAbs) := by
  induction R with
  | nil => rfl
  | cons r R ih =>
    rw [List.mapM_cons, absMax_eq (h r (by simp)), ih fun r hr => h r (List.mem_cons_of_mem _ hr)]
    rfl

end ChannelScale

end Brevitas
