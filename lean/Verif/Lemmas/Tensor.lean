import Verif.Spec.Tensor
import Mathlib.Data.List.GetD
import Mathlib.Tactic.Linarith

/-! # Lemmas on concatenation -/

namespace Brevitas.NdTensor

variable {K : Type*} [Zero K]

/-- The concatenation of tensors whose shapes, with a zero at dimension `k`, are all `s`. -/
def mk' (k : ℕ) (s : List ℕ) (ts : List (NdTensor K)) : NdTensor K :=
  ⟨s.set k ((ts.map (size k)).sum),
    fun idx => if InBounds (s.set k ((ts.map (size k)).sum)) idx then pick k ts idx (idx.getD k 0) else 0⟩

theorem dimOf_lt {rank k : ℕ} {d : ℤ} (h : dimOf rank d = some k) : k < rank := by
  unfold dimOf at h
  split_ifs at h with h1 h2 h3
  · simp only [Option.some.injEq] at h; omega
  · simp only [Option.some.injEq] at h; omega

theorem cat_eq_some {d : ℤ} {ts : List (NdTensor K)} {u : NdTensor K} :
    cat d ts = some u ↔ ∃ k s, ts ≠ [] ∧ dimOf s.length d = some k ∧ (∀ t ∈ ts, t.shape.set k 0 = s) ∧ u = mk' k s ts := by
  cases ts with
  | nil => simp [cat]
  | cons t ts =>
    unfold cat
    simp only
    constructor
    · intro h
      cases hd : dimOf t.shape.length d with
      | none => rw [hd] at h; simp at h
      | some k =>
        rw [hd] at h
        simp only at h
        split_ifs at h with hall
        simp only [Option.some.injEq] at h
        refine ⟨k, t.shape.set k 0, by simp, by rw [List.length_set]; exact hd, hall, ?_⟩
        rw [← h]
        simp only [mk', List.set_set]
    · rintro ⟨k, s, _, hd, hall, rfl⟩
      have ht := hall t (by simp)
      have hl : t.shape.length = s.length := by rw [← ht, List.length_set]
      rw [hl, hd]
      simp only
      rw [if_pos (fun u hu => (hall u hu).trans ht.symm)]
      simp only [mk', ← ht, List.set_set]

theorem pick_append (k : ℕ) (A B : List (NdTensor K)) (idx : List ℕ) (j : ℕ) :
    pick k (A ++ B) idx j = if j < (A.map (size k)).sum then pick k A idx j else pick k B idx (j - (A.map (size k)).sum) := by
  induction A generalizing j with
  | nil => simp
  | cons t A ih =>
    simp only [List.cons_append, pick, List.map_cons, List.sum_cons]
    by_cases h1 : j < t.size k
    · rw [if_pos h1, if_pos h1, if_pos (by omega)]
    · rw [if_neg h1, if_neg h1, ih]
      by_cases h2 : j - t.size k < (A.map (size k)).sum
      · rw [if_pos h2, if_pos (by omega)]
      · rw [if_neg h2, if_neg (by omega)]
        congr 1
        omega

theorem pick_set (k : ℕ) (ts : List (NdTensor K)) (idx : List ℕ) (i j : ℕ) : pick k ts (idx.set k i) j = pick k ts idx j := by
  induction ts generalizing j with
  | nil => rfl
  | cons t ts ih => simp only [pick, List.set_set, ih]

theorem size_mk' {k : ℕ} {s : List ℕ} (hk : k < s.length) (ts : List (NdTensor K)) :
    (mk' k s ts).size k = (ts.map (size k)).sum := by
  simp [size, mk', List.getD_eq_getElem?_getD, List.getElem?_set_self hk]

theorem InBounds.set {s idx : List ℕ} {k n m j : ℕ} (h : InBounds (s.set k n) idx) (hj : j < m) :
    InBounds (s.set k m) (idx.set k j) := by
  unfold InBounds at *
  induction s generalizing idx k with
  | nil => simp only [List.set_nil] at h ⊢; cases h; simp
  | cons a s ih =>
    cases k with
    | zero =>
      simp only [List.set_cons_zero] at h ⊢
      cases h with
      | cons h1 h2 => exact List.Forall₂.cons hj h2
    | succ k =>
      simp only [List.set_cons_succ] at h ⊢
      cases h with
      | cons h1 h2 => exact List.Forall₂.cons h1 (ih h2)

theorem InBounds.length {s idx : List ℕ} (h : InBounds s idx) : idx.length = s.length := List.Forall₂.length_eq h

theorem getD_set_self {idx : List ℕ} {k j : ℕ} (hk : k < idx.length) : (idx.set k j).getD k 0 = j := by
  simp [List.getD_eq_getElem?_getD, List.getElem?_set_self hk]

theorem shape_mk'_set (k : ℕ) (s : List ℕ) (hs : s.set k 0 = s) (ts : List (NdTensor K)) : (mk' k s ts).shape.set k 0 = s := by
  simp only [mk', List.set_set, hs]

theorem mk'_congr {k : ℕ} {s : List ℕ} {A B : List (NdTensor K)} (hsum : (A.map (size k)).sum = (B.map (size k)).sum)
    (h : ∀ idx, InBounds (s.set k ((B.map (size k)).sum)) idx → pick k A idx (idx.getD k 0) = pick k B idx (idx.getD k 0)) :
    mk' k s A = mk' k s B := by
  unfold mk'
  generalize (A.map (size k)).sum = n at *
  subst hsum
  congr 1
  funext idx
  by_cases hin : InBounds (s.set k ((B.map (size k)).sum)) idx
  · rw [if_pos hin, if_pos hin, h idx hin]
  · rw [if_neg hin, if_neg hin]

/-- Concatenating a concatenation along the same dimension is concatenating everything. -/
theorem cat_flatten {d : ℤ} {pre ts post : List (NdTensor K)} {t u : NdTensor K} (h1 : cat d ts = some t)
    (h2 : cat d (pre ++ t :: post) = some u) : cat d (pre ++ ts ++ post) = some u := by
  obtain ⟨k, s, hne, hd, hall, rfl⟩ := cat_eq_some.1 h1
  obtain ⟨k', s', _, hd', hall', rfl⟩ := cat_eq_some.1 h2
  have hk := dimOf_lt hd
  have hss : s.set k 0 = s := by
    cases ts with
    | nil => exact absurd rfl hne
    | cons a _ => rw [← hall a (by simp), List.set_set]
  have ht := hall' (mk' k s ts) (by simp)
  have hlen : s'.length = s.length := by rw [← ht]; simp [mk']
  have hkk : k' = k := by
    rw [hlen, hd, Option.some.injEq] at hd'
    exact hd'.symm
  subst hkk
  rw [shape_mk'_set k' s hss] at ht
  subst ht
  apply cat_eq_some.2
  refine ⟨k', s, ?_, hd, ?_, ?_⟩
  · cases ts with
    | nil => exact absurd rfl hne
    | cons a _ => simp
  · intro x hx
    simp only [List.mem_append] at hx
    rcases hx with (hx | hx) | hx
    · exact hall' x (by simp [hx])
    · exact hall x hx
    · exact hall' x (by simp [hx])
  · have hsum : ((pre ++ mk' k' s ts :: post).map (size k')).sum = ((pre ++ ts ++ post).map (size k')).sum := by
      simp only [List.map_append, List.map_cons, List.sum_append, List.sum_cons, size_mk' hk]
      omega
    refine mk'_congr hsum ?_
    intro idx hin
    generalize idx.getD k' 0 = j
    rw [List.append_assoc, pick_append, pick_append]
    by_cases hA : j < (pre.map (size k')).sum
    · rw [if_pos hA, if_pos hA]
    · rw [if_neg hA, if_neg hA, pick_append]
      generalize j - (pre.map (size k')).sum = j'
      simp only [pick, size_mk' hk]
      by_cases hB : j' < (ts.map (size k')).sum
      · rw [if_pos hB, if_pos hB]
        simp only [mk']
        rw [if_pos (hin.set hB), getD_set_self, pick_set]
        rw [hin.length, List.length_set]
        exact hk
      · rw [if_neg hB, if_neg hB]

end Brevitas.NdTensor

namespace Brevitas

variable {K : Type*}

theorem tensorList_append {as bs : List (Fx.Arg (Option (NdTensor K)))} {l : List (NdTensor K)} :
    tensorList (as ++ bs) = some l ↔ ∃ l1 l2, tensorList as = some l1 ∧ tensorList bs = some l2 ∧ l = l1 ++ l2 := by
  induction as generalizing l with
  | nil => simp [tensorList]
  | cons a as ih =>
    rcases a with (_ | t) | k | xs
    · simp [tensorList]
    · simp only [List.cons_append, tensorList, Option.map_eq_some_iff, ih]
      constructor
      · rintro ⟨l', ⟨l1, l2, h1, h2, rfl⟩, rfl⟩
        exact ⟨t :: l1, l2, ⟨l1, h1, rfl⟩, h2, rfl⟩
      · rintro ⟨l1, l2, ⟨l1', h1, rfl⟩, h2, rfl⟩
        exact ⟨l1' ++ l2, ⟨l1', l2, h1, h2, rfl⟩, rfl⟩
    · simp [tensorList]
    · simp [tensorList]

end Brevitas
