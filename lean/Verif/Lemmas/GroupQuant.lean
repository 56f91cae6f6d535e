import Verif.Lemmas.Shape
import Verif.Lemmas.Ops
import Verif.Lemmas.QuantTensor
import Verif.Model.GroupQuant
import Verif.Spec.Group

/-!
# Lemmas about group-wise quantisation
-/

set_option linter.unusedSectionVars false

namespace Brevitas.Group

open Brevitas.Spec

variable {K : Type*} [Field K] [LinearOrder K] [IsStrictOrderedRing K] [FloorRing K]

/-- the zero point of a group -/
def ZeroPoint.of (z : ZeroPoint K) (g : List K) : K :=
  match z with
  | .scalar z => z
  | .grouped stat => stat g

theorem expandTo_wf (t : Tensor K) (s : List ℕ) : (t.expandTo s).WF := by simp [Tensor.expandTo, Tensor.WF]

theorem at_some (t : Tensor K) (hwf : t.WF) {idx : List ℕ} (h : InRange t.shape idx) : t.at idx = some ((t.at idx).getD 0) := by
  obtain ⟨v, hv⟩ := t.at_isSome hwf h
  rw [hv]; rfl

theorem zipBc_wf (op : K → K → K) (a b : Tensor K) (ha : a.WF) : (zipBc op a b).WF := by
  unfold Tensor.WF at ha ⊢
  have := expandTo_wf b a.shape
  unfold Tensor.WF at this
  simp only [zipBc, List.length_zipWith, ha, this]
  simp [Tensor.expandTo]

theorem zipBc_at (op : K → K → K) (a b : Tensor K) (ha : a.WF) {idx : List ℕ} (h : InRange a.shape idx) :
    (zipBc op a b).at idx = some (op ((a.at idx).getD 0) (((b.expandTo a.shape).at idx).getD 0)) := by
  have h1 := at_some a ha h
  have h2 := at_some (b.expandTo a.shape) (expandTo_wf b a.shape) (idx := idx) h
  have e : (zipBc op a b).at idx = (List.zipWith op a.data (b.expandTo a.shape).data)[ravel a.shape idx]? := rfl
  have h1' : a.data[ravel a.shape idx]? = some ((a.at idx).getD 0) := h1
  have h2' : (b.expandTo a.shape).data[ravel a.shape idx]? = some (((b.expandTo a.shape).at idx).getD 0) := h2
  rw [e, List.getElem?_zipWith, h1', h2']

theorem mapT_wf (op : K → K) (a : Tensor K) (ha : a.WF) : (mapT op a).WF := by
  unfold Tensor.WF at ha ⊢; simpa [mapT] using ha

theorem mapT_at (op : K → K) (a : Tensor K) (ha : a.WF) {idx : List ℕ} (h : InRange a.shape idx) :
    (mapT op a).at idx = some (op ((a.at idx).getD 0)) := by
  have e : (mapT op a).at idx = (a.at idx).map op := by simp [mapT, Tensor.at]
  rw [e, at_some a ha h]; rfl

theorem toIntT_wf (c : IntQuantCfg K) (s z : Tensor K) (bw : ℕ) (y : Tensor K) (hy : y.WF) : (toIntT c s z bw y).WF :=
  mapT_wf _ _ (mapT_wf _ _ (zipBc_wf _ _ _ (zipBc_wf _ _ _ hy)))

theorem forwardT_wf (c : IntQuantCfg K) (s z : Tensor K) (bw : ℕ) (y : Tensor K) (hy : y.WF) : (forwardT c s z bw y).WF :=
  zipBc_wf _ _ _ (zipBc_wf _ _ _ (toIntT_wf c s z bw y hy))

theorem toIntT_at (c : IntQuantCfg K) (s z : Tensor K) (bw : ℕ) (y : Tensor K) (hy : y.WF) {idx : List ℕ} (h : InRange y.shape idx) :
    (toIntT c s z bw y).at idx = some (c.toInt (((s.expandTo y.shape).at idx).getD 0) (((z.expandTo y.shape).at idx).getD 0) bw
      ((y.at idx).getD 0)) := by
  have w1 := zipBc_wf (fun a b => a / b) y s hy
  have w2 := zipBc_wf (fun a b => a + b) _ z w1
  have w3 := mapT_wf (fun v => ((c.floatToInt v : ℤ) : K)) _ w2
  rw [toIntT, mapT_at _ _ w3 h, mapT_at _ _ w2 h, zipBc_at _ _ _ w1 h, zipBc_at _ _ _ hy h]
  rfl

theorem forwardT_at (c : IntQuantCfg K) (s z : Tensor K) (bw : ℕ) (y : Tensor K) (hy : y.WF) {idx : List ℕ} (h : InRange y.shape idx) :
    (forwardT c s z bw y).at idx = some (c.forward (((s.expandTo y.shape).at idx).getD 0) (((z.expandTo y.shape).at idx).getD 0) bw
      ((y.at idx).getD 0)) := by
  have w1 := toIntT_wf c s z bw y hy
  have w2 := zipBc_wf (fun a b => a - b) _ z w1
  rw [forwardT, zipBc_at _ _ _ w2 h, zipBc_at _ _ _ w1 h, toIntT_at c s z bw y hy h]
  rfl

/-- broadcasting the reduction over dimension `pre.length` of a tensor of shape `pre ++ d :: post` -/
theorem reduce_expand_at (stat : List K → K) (y : Tensor K) (pre post : List ℕ) (d : ℕ) (hys : y.shape = pre ++ d :: post) {ip iq : List ℕ}
    {k : ℕ} (hip : InRange pre ip) (hiq : InRange post iq) (hk : k < d) :
    ((reduceKeepdim stat y pre.length).expandTo y.shape).at (ip ++ k :: iq) =
      some (stat ((List.range d).map fun j => (y.at (ip ++ j :: iq)).getD 0)) := by
  have hin : InRange y.shape (ip ++ k :: iq) := by rw [hys]; exact InRange_append hip (List.Forall₂.cons hk hiq)
  rw [Tensor.expandTo]
  rw [tabulate_at y.shape (fun i => ((reduceKeepdim stat y pre.length).at
    (List.zipWith (fun s i => if s = 1 then 0 else i) (reduceKeepdim stat y pre.length).shape i)).getD 0) hin]
  have hsz : ∀ (s i : List ℕ), InRange s i → List.zipWith (fun s i => if s = 1 then 0 else i) s i = i := by
    intro s i h
    induction h with
    | nil => rfl
    | @cons a b s i h1 h2 ih =>
      rw [List.zipWith_cons_cons, ih]
      split_ifs with h
      · congr 1; omega
      · rfl
  have hshape : (reduceKeepdim stat y pre.length).shape = pre ++ 1 :: post := by
    simp [reduceKeepdim, hys]
  have hzip : List.zipWith (fun s i => if s = 1 then 0 else i) (reduceKeepdim stat y pre.length).shape (ip ++ k :: iq) = ip ++ 0 :: iq := by
    rw [hshape, List.zipWith_append (InRange.length hip), List.zipWith_cons_cons, hsz _ _ hip, hsz _ _ hiq]; rfl
  rw [hzip]
  have hin0 : InRange (y.shape.set pre.length 1) (ip ++ 0 :: iq) := by
    rw [hys]; simp only [List.set_append_right _ _ (le_refl _), Nat.sub_self, List.set_cons_zero]
    exact InRange_append hip (List.Forall₂.cons (by omega) hiq)
  have := tabulate_at (y.shape.set pre.length 1)
    (fun idx => stat ((List.range (y.shape.getD pre.length 0)).map fun j => (y.at (idx.set pre.length j)).getD 0)) hin0
  rw [reduceKeepdim]
  simp only []
  rw [this, Option.getD_some]
  congr 2
  have hd : y.shape.getD pre.length 0 = d := by simp [hys, List.getD_eq_getElem?_getD]
  rw [hd]
  apply List.map_congr_left
  intro j _
  have : (ip ++ 0 :: iq).set pre.length j = ip ++ j :: iq := by
    rw [InRange.length hip]; simp
  rw [this]

theorem scalar_expand_at (z : K) (s idx : List ℕ) (h : InRange s idx) : ((Tensor.mk [] [z]).expandTo s).at idx = some z := by
  rw [Tensor.expandTo, tabulate_at s (fun i => ((Tensor.mk [] [z]).at (List.zipWith (fun s i => if s = 1 then 0 else i) [] i)).getD 0) h]
  simp [Tensor.at, ravel]

theorem expandTo_self_at (t : Tensor K) {idx : List ℕ} (h : InRange t.shape idx) : ((t.expandTo t.shape).at idx).getD 0 = (t.at idx).getD 0 := by
  have hsz : ∀ (s i : List ℕ), InRange s i → List.zipWith (fun s i => if s = 1 then 0 else i) s i = i := by
    intro s i h
    induction h with
    | nil => rfl
    | @cons a b s i h1 h2 ih =>
      rw [List.zipWith_cons_cons, ih]
      split_ifs with h
      · congr 1; omega
      · rfl
  rw [Tensor.expandTo, tabulate_at t.shape (fun i => (t.at (List.zipWith (fun s i => if s = 1 then 0 else i) t.shape i)).getD 0) h,
    hsz _ _ h, Option.getD_some]

/-- `y` is the view of `x` as `a` blocks of `d` elements along the grouped dimension -/
structure Viewed (x y : Tensor K) (pre post : List ℕ) (n a d : ℕ) : Prop where
  shape : y.shape = pre ++ a :: d :: post
  wf : y.WF
  elem : ∀ ip b j iq, InRange pre ip → InRange post iq → b < a → j < d → y.at (ip ++ b :: j :: iq) = some (element x n ip (b * d + j) iq)

theorem viewed_dynamic (x : Tensor K) (pre post : List ℕ) (n gs : ℕ) (hgs : 1 ≤ gs) (hsh : x.shape = pre ++ n :: post) (hwf : x.WF) :
    ∃ y, dynamicOverSubChannelBlockView gs (pre.length : ℤ) x = some y ∧ Viewed x y pre post n ((n + gs - 1) / gs) gs := by
  obtain ⟨y, h1, h2, h3, h4⟩ := dynamicView_spec x pre post n gs hgs hsh hwf
  refine ⟨y, h1, h2, h3, ?_⟩
  intro ip b j iq hip hiq hb hj
  rw [h4 ip b j iq hip hiq hb hj, element]
  by_cases h : b * gs + j < n
  · rw [if_pos h, if_pos h]
    exact at_some x hwf (by rw [hsh]; exact InRange_append hip (List.Forall₂.cons h hiq))
  · rw [if_neg h, if_neg h]

theorem viewed_last (x : Tensor K) (pre : List ℕ) (n gs : ℕ) (hgs : 1 ≤ gs) (hsh : x.shape = pre ++ [n]) (hwf : x.WF) :
    ∃ y, dynamicOverSubChannelBlockView gs (-1) x = some y ∧ Viewed x y pre [] n gs ((n + gs - 1) / gs) := by
  obtain ⟨y, h1, h2, h3, h4⟩ := dynamicView_last_spec x pre n gs hgs hsh hwf
  refine ⟨y, h1, h2, h3, ?_⟩
  intro ip b j iq hip hiq hb hj
  cases hiq
  rw [h4 ip b j hip hb hj, element]
  by_cases h : b * ((n + gs - 1) / gs) + j < n
  · rw [if_pos h, if_pos h]
    exact at_some x hwf (by rw [hsh]; exact InRange_append hip (List.Forall₂.cons h List.Forall₂.nil))
  · rw [if_neg h, if_neg h]

theorem flattenPair_eq (t : Tensor K) (pre post : List ℕ) (a d : ℕ) (hs : t.shape = pre ++ a :: d :: post) :
    ∃ u, flattenPair t pre.length = some u ∧ u.shape = pre ++ (a * d) :: post ∧ (t.WF → u.WF) ∧
      ∀ ip b j iq, InRange pre ip → InRange post iq → u.at (ip ++ (b * d + j) :: iq) = t.at (ip ++ b :: j :: iq) := by
  refine ⟨t.flatten2 pre.length, ?_, ?_, ?_, ?_⟩
  · rw [flattenPair, if_pos]; rw [hs]; simp
  · simp [Tensor.flatten2, hs, List.getD_eq_getElem?_getD]
  · intro h
    unfold Tensor.WF at h ⊢
    have : (t.flatten2 pre.length).data = t.data := rfl
    rw [this, h, hs]
    simp [Tensor.flatten2, hs, List.getD_eq_getElem?_getD, mul_assoc]
  · intro ip b j iq hip hiq
    exact flatten2_at t pre post a d hs hip hiq

theorem expandable_one (pre post : List ℕ) (d : ℕ) : expandable (pre ++ 1 :: post) (pre ++ d :: post) = true := by
  have h : ∀ l : List ℕ, ((List.zip l l).all fun ab => ab.1 == 1 || ab.1 == ab.2) = true := by
    intro l; induction l with
    | nil => rfl
    | cons a l ih => simp only [List.zip_cons_cons, List.all_cons, ih, beq_self_eq_true, Bool.or_true, Bool.and_self]
  rw [expandable, List.zip_append rfl, List.all_append, List.zip_cons_cons, List.all_cons, h, h]
  simp

/-- the expansion of a statistic of the groups -/
theorem expandMeta_reduce (stat : List K → K) (x y v : Tensor K) (pre post : List ℕ) (n a d : ℕ) (hy : Viewed x y pre post n a d)
    (hv : v.shape = y.shape) :
    ∃ s, expandMeta v (reduceKeepdim stat y (pre.length + 1)) pre.length = some s ∧ s.shape = pre ++ (a * d) :: post ∧ s.WF ∧
      ∀ ip b j iq, InRange pre ip → InRange post iq → b < a → j < d →
        s.at (ip ++ (b * d + j) :: iq) = some (stat (groupOf x n d ip (b * d + j) iq)) := by
  have hlen : pre.length + 1 = (pre ++ [a]).length := by simp
  have hys : y.shape = (pre ++ [a]) ++ d :: post := by rw [hy.shape]; simp
  have hrs : (reduceKeepdim stat y (pre.length + 1)).shape = (pre ++ [a]) ++ 1 :: post := by
    rw [reduceKeepdim]; simp [hy.shape]
  have hx : expandable (reduceKeepdim stat y (pre.length + 1)).shape v.shape = true := by
    rw [hrs, hv, hys]; exact expandable_one _ _ _
  have hne : (reduceKeepdim stat y (pre.length + 1)).shape ≠ [] := by rw [hrs]; simp
  obtain ⟨s, h1, h2, h3, h4⟩ := flattenPair_eq ((reduceKeepdim stat y (pre.length + 1)).expandTo v.shape) pre post a d
    (by rw [← hy.shape, ← hv]; rfl)
  refine ⟨s, ?_, h2, h3 (expandTo_wf _ _), ?_⟩
  · rw [expandMeta, if_pos hne, if_pos hx, h1]
  · intro ip b j iq hip hiq hb hj
    rw [h4 ip b j iq hip hiq, hv, hlen]
    have hip' : InRange (pre ++ [a]) (ip ++ [b]) := InRange_append hip (List.Forall₂.cons hb List.Forall₂.nil)
    have := reduce_expand_at stat y (pre ++ [a]) post d hys hip' hiq hj
    simp only [List.append_assoc, List.singleton_append] at this
    rw [this, groupOf]
    congr 2
    apply List.map_congr_left
    intro j' hj'
    have hj'' := List.mem_range.mp hj'
    rw [hy.elem ip b j' iq hip hiq hb hj'', Option.getD_some]
    have : (b * d + j) / d = b := by
      rw [Nat.mul_comm, Nat.mul_add_div (by omega), Nat.div_eq_of_lt hj, add_zero]
    rw [this]

/-- the quant tensor of a viewed tensor -/
theorem quantView_spec (q : Quantizer K) (tr : Bool) (x y : Tensor K) (pre post : List ℕ) (n a d : ℕ) (hy : Viewed x y pre post n a d)
    (hst : startDim y.shape.length q.groupDim = pre.length) (hrd : statsReduceDim y.shape.length q.groupDim = pre.length + 1) :
    ∃ v s z, (quantView q false tr x y).expand = some (v, s, z) ∧ v.shape = pre ++ (a * d) :: post ∧ v.WF ∧
      s.shape = pre ++ (a * d) :: post ∧ s.WF ∧ (z.shape = [] ∨ z.shape = pre ++ (a * d) :: post) ∧ z.WF ∧
      ∀ ip k iq, InRange pre ip → InRange post iq → k < a * d →
        v.at (ip ++ k :: iq) = some (q.cfg.forward (q.scaleOf (groupOf x n d ip k iq)) (q.zeroPoint.of (groupOf x n d ip k iq)) q.bitWidth
          (element x n ip k iq)) ∧
        s.at (ip ++ k :: iq) = some (q.scaleOf (groupOf x n d ip k iq)) ∧
        readAt z (ip ++ k :: iq) = some (q.zeroPoint.of (groupOf x n d ip k iq)) := by
  set sc := reduceKeepdim q.scaleOf y (pre.length + 1) with hsc
  set zp := zeroPointT q.zeroPoint y (pre.length + 1) with hzp
  set val := forwardT q.cfg sc zp q.bitWidth y with hval
  have hqv : quantView q false tr x y = ⟨val, sc, zp, q.groupSize, q.groupDim, q.bitWidth, q.cfg.signed, tr⟩ := by
    simp only [quantView, hrd, Bool.false_eq_true, if_false]
    rfl
  have hvs : val.shape = y.shape := rfl
  obtain ⟨v, v1, v2, v3, v4⟩ := flattenPair_eq val pre post a d (by rw [hvs, hy.shape])
  obtain ⟨s, s1, s2, s3, s4⟩ := expandMeta_reduce q.scaleOf x y val pre post n a d hy hvs
  have hlen : pre.length + 1 = (pre ++ [a]).length := by simp
  have hys : y.shape = (pre ++ [a]) ++ d :: post := by rw [hy.shape]; simp
  have hgrp : ∀ ip b j iq, InRange pre ip → InRange post iq → b < a → j < d → ∀ stat : List K → K,
      ((reduceKeepdim stat y (pre.length + 1)).expandTo y.shape).at (ip ++ b :: j :: iq) = some (stat (groupOf x n d ip (b * d + j) iq)) := by
    intro ip b j iq hip hiq hb hj stat
    have hip' : InRange (pre ++ [a]) (ip ++ [b]) := InRange_append hip (List.Forall₂.cons hb List.Forall₂.nil)
    have := reduce_expand_at stat y (pre ++ [a]) post d hys hip' hiq hj
    simp only [List.append_assoc, List.singleton_append] at this
    rw [hlen, this, groupOf]
    congr 2
    apply List.map_congr_left
    intro j' hj'
    have hj'' := List.mem_range.mp hj'
    rw [hy.elem ip b j' iq hip hiq hb hj'', Option.getD_some]
    have : (b * d + j) / d = b := by
      rw [Nat.mul_comm, Nat.mul_add_div (by omega), Nat.div_eq_of_lt hj, add_zero]
    rw [this]
  have hz : ∃ z, expandMeta val zp pre.length = some z ∧ (z.shape = [] ∨ z.shape = pre ++ (a * d) :: post) ∧ z.WF ∧
      ∀ ip b j iq, InRange pre ip → InRange post iq → b < a → j < d →
        readAt z (ip ++ (b * d + j) :: iq) = some (q.zeroPoint.of (groupOf x n d ip (b * d + j) iq)) ∧
        (zp.expandTo y.shape).at (ip ++ b :: j :: iq) = some (q.zeroPoint.of (groupOf x n d ip (b * d + j) iq)) := by
    rcases hq : q.zeroPoint with z | stat
    · refine ⟨⟨[], [z]⟩, ?_, Or.inl rfl, rfl, ?_⟩
      · rw [hzp, hq]; rfl
      · intro ip b j iq hip hiq hb hj
        refine ⟨rfl, ?_⟩
        rw [hzp, hq]
        exact scalar_expand_at z _ _ (by rw [hy.shape]; exact InRange_append hip (List.Forall₂.cons hb (List.Forall₂.cons hj hiq)))
    · obtain ⟨z, z1, z2, z3, z4⟩ := expandMeta_reduce stat x y val pre post n a d hy hvs
      refine ⟨z, ?_, Or.inr z2, z3, ?_⟩
      · rw [hzp, hq]; exact z1
      · intro ip b j iq hip hiq hb hj
        constructor
        · rw [readAt, if_neg (by rw [z2]; simp), z4 ip b j iq hip hiq hb hj]; rfl
        · rw [hzp, hq]
          exact hgrp ip b j iq hip hiq hb hj stat
  obtain ⟨z, z1, z2, z3, z4⟩ := hz
  refine ⟨v, s, z, ?_, v2, v3 (forwardT_wf _ _ _ _ _ hy.wf), s2, s3, z2, z3, ?_⟩
  · rw [hqv, QT.expand]
    simp only [hvs, hst]
    rw [v1, Option.bind_some, s1, Option.bind_some, z1, Option.map_some]
  · intro ip k iq hip hiq hk
    have hd : 0 < d := by
      rcases Nat.eq_zero_or_pos d with h | h
      · rw [h] at hk; omega
      · exact h
    have hb : k / d < a := by rw [Nat.div_lt_iff_lt_mul hd]; exact hk
    have hj : k % d < d := Nat.mod_lt _ hd
    have e : k / d * d + k % d = k := by rw [Nat.mul_comm]; exact Nat.div_add_mod k d
    have V := v4 ip (k / d) (k % d) iq hip hiq
    have S := s4 ip (k / d) (k % d) iq hip hiq hb hj
    have Z := z4 ip (k / d) (k % d) iq hip hiq hb hj
    have G := hgrp ip (k / d) (k % d) iq hip hiq hb hj q.scaleOf
    have Y := hy.elem ip (k / d) (k % d) iq hip hiq hb hj
    have F := forwardT_at q.cfg sc zp q.bitWidth y hy.wf (idx := ip ++ k / d :: k % d :: iq)
      (by rw [hy.shape]; exact InRange_append hip (List.Forall₂.cons hb (List.Forall₂.cons hj hiq)))
    rw [hsc, G, Z.2, Y] at F
    rw [e] at V S Z F
    refine ⟨?_, S, Z.1⟩
    rw [V, hval]
    simpa only [Option.getD_some] using F

/-- every index of the flattened tensor has a position along the grouped dimension -/
theorem index_split {pre post idx : List ℕ} {N : ℕ} (h : InRange (pre ++ N :: post) idx) :
    ∃ ip k iq, InRange pre ip ∧ InRange post iq ∧ k < N ∧ idx = ip ++ k :: iq := by
  obtain ⟨ip, r, h1, h2, rfl⟩ := InRange_append_left h
  cases h2 with
  | @cons _ k _ iq hk hiq => exact ⟨ip, k, iq, h1, hiq, hk, rfl⟩

/-- reading a broadcast operand -/
theorem expandTo_readAt (t : Tensor K) (s : List ℕ) {idx : List ℕ} (h : InRange s idx) (hs : t.shape = [] ∨ t.shape = s) (hwf : t.WF) :
    (((t.expandTo s).at idx).getD 0) = (readAt t idx).getD 0 := by
  rcases hs with hs | hs
  · rw [readAt, if_pos hs]
    obtain ⟨sh, data⟩ := t
    simp only at hs
    subst hs
    rcases data with _ | ⟨z, l⟩
    · simp [Tensor.WF] at hwf
    · have : l = [] := by
        simp [Tensor.WF] at hwf; exact hwf
      subst this
      rw [scalar_expand_at z s idx h]
      rfl
  · by_cases h0 : t.shape = []
    · have : idx = [] := by rw [← hs, h0] at h; cases h; rfl
      subst this
      rw [readAt, if_pos h0, ← hs]
      exact expandTo_self_at t (by rw [h0]; exact List.Forall₂.nil)
    · rw [readAt, if_neg h0, ← hs]
      exact expandTo_self_at t (by rw [hs]; exact h)

/-- the elements of a well-formed tensor -/
theorem mem_data (t : Tensor K) (hwf : t.WF) {v : K} (hv : v ∈ t.data) : ∃ idx, InRange t.shape idx ∧ t.at idx = some v := by
  obtain ⟨i, hi, rfl⟩ := List.mem_iff_getElem.mp hv
  have hi' : i < t.shape.prod := by rw [← hwf]; exact hi
  exact ⟨unravel t.shape i, unravel_inRange hi', by rw [Tensor.at, ravel_unravel hi', List.getElem?_eq_getElem hi]⟩

/-- integers of a quant tensor whose values are codes times the scale -/
theorem int_of_codes (t : QT K) (v s z : Tensor K) (he : t.expand = some (v, s, z)) (hv : v.WF) (hs : s.shape = v.shape) (hsw : s.WF)
    (hz : z.shape = [] ∨ z.shape = v.shape) (hzw : z.WF) (hb : 2 ≤ t.bitWidth) {atol : K} (ha : 0 < atol)
    (hne : ∃ idx, InRange v.shape idx)
    (hc : ∀ idx, InRange v.shape idx → ∃ sc zp : K, ∃ m : ℤ, sc ≠ 0 ∧ s.at idx = some sc ∧ readAt z idx = some zp ∧
      v.at idx = some (((m : K) - zp) * sc) ∧ _root_.Spec.IsCode t.signed false t.bitWidth m) :
    t.isValid atol = some true ∧ ∃ ns, t.int atol = some (v.shape, ns) ∧ ns.length = v.shape.prod ∧
      ∀ idx, InRange v.shape idx → ∃ sc zp : K, ∃ m : ℤ, s.at idx = some sc ∧ readAt z idx = some zp ∧
        v.at idx = some (((m : K) - zp) * sc) ∧ _root_.Spec.IsCode t.signed false t.bitWidth m ∧ ns[ravel v.shape idx]? = some m := by
  set p := zipBc (fun a b => a + b) (zipBc (fun a b => a / b) v s) z with hp
  have hpr : t.preRound = some p := by
    simp only [QT.preRound, QT.value, QT.scale, QT.zeroPoint, he, Option.map_some, Option.bind_some]
    rfl
  have w1 := zipBc_wf (fun a b => a / b) v s hv
  have wp : p.WF := zipBc_wf _ _ _ w1
  have hps : p.shape = v.shape := rfl
  have hpat : ∀ idx, InRange v.shape idx → ∀ sc zp : K, ∀ m : ℤ, sc ≠ 0 → s.at idx = some sc → readAt z idx = some zp →
      v.at idx = some (((m : K) - zp) * sc) → p.at idx = some (m : K) := by
    intro idx hidx sc zp m h0 h1 h2 h3
    rw [hp, zipBc_at _ _ _ w1 hidx, zipBc_at _ _ _ hv hidx, h3]
    have e1 : ((s.expandTo v.shape).at idx).getD 0 = sc := by rw [← hs, expandTo_self_at s (by rw [hs]; exact hidx), h1]; rfl
    have e2 : ((z.expandTo (zipBc (fun a b => a / b) v s).shape).at idx).getD 0 = zp := by
      have : (zipBc (fun a b => a / b) v s).shape = v.shape := rfl
      rw [this, expandTo_readAt z v.shape hidx hz hzw, h2]; rfl
    rw [e1, e2, Option.getD_some, Option.getD_some, mul_div_cancel_right₀ _ h0, sub_add_cancel]
  have hval : t.isValid atol = some true := by
    rw [QT.isValid, hpr, Option.bind_some, isValid_iff_rounded _ hb]
    constructor
    · obtain ⟨idx, hidx⟩ := hne
      intro h
      have h' : p.data = [] := h
      have := p.at_isSome wp (idx := idx) hidx
      rw [Tensor.at, h'] at this
      simp at this
    · intro y hy
      rw [IntQT.preRound] at hy
      simp only [List.mem_map, div_one, add_zero] at hy
      obtain ⟨w, hw, rfl⟩ := hy
      obtain ⟨idx, hidx, hat⟩ := mem_data p wp hw
      obtain ⟨sc, zp, m, h0, h1, h2, h3, h4⟩ := hc idx hidx
      have := hpat idx hidx sc zp m h0 h1 h2 h3
      rw [hat] at this
      have hw' : w = (m : K) := Option.some.inj this
      rw [hw', torchRound_faithful.int]
      exact ⟨by simpa using ha, h4⟩
  refine ⟨hval, p.data.map torchRound, ?_, ?_, ?_⟩
  · rw [QT.int, hval]
    simp only [hpr, Option.map_some, hps]
  · rw [List.length_map]
    exact wp
  · intro idx hidx
    obtain ⟨sc, zp, m, h0, h1, h2, h3, h4⟩ := hc idx hidx
    refine ⟨sc, zp, m, h1, h2, h3, h4, ?_⟩
    have := hpat idx hidx sc zp m h0 h1 h2 h3
    rw [Tensor.at, hps] at this
    rw [List.getElem?_map, this, Option.map_some, torchRound_faithful.int]

end Brevitas.Group
