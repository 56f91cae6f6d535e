import Mathlib.Tactic.Ring
import Mathlib.Algebra.Order.Ring.Nat
import Verif.Model.Shape

/-!
# Lemmas about row-major indexing and group-wise views
-/

set_option linter.unusedSectionVars false

namespace Brevitas

open Spec

variable {K : Type*} [Field K]

theorem ravel_foldl_acc (l : List (ℕ × ℕ)) (acc : ℕ) :
    l.foldl (fun acc di => acc * di.1 + di.2) acc = acc * (l.map Prod.fst).prod + l.foldl (fun acc di => acc * di.1 + di.2) 0 := by
  induction l generalizing acc with
  | nil => simp
  | cons a l ih =>
    rw [List.foldl_cons, ih, List.foldl_cons, ih (0 * a.1 + a.2), List.map_cons, List.prod_cons]; ring

theorem ravel_nil : ravel [] [] = 0 := rfl

theorem ravel_cons (d i : ℕ) (ds is : List ℕ) (h : ds.length = is.length) : ravel (d :: ds) (i :: is) = i * ds.prod + ravel ds is := by
  rw [ravel, List.zip_cons_cons, List.foldl_cons, ravel_foldl_acc, List.map_fst_zip (by omega)]
  simp [ravel]

theorem InRange.length {s i : List ℕ} (h : InRange s i) : s.length = i.length := List.Forall₂.length_eq h

theorem ravel_lt {s i : List ℕ} (h : InRange s i) : ravel s i < s.prod := by
  induction h with
  | nil => simp [ravel]
  | @cons d i ds is h1 h2 ih =>
    rw [ravel_cons _ _ _ _ (InRange.length h2), List.prod_cons]
    calc i * ds.prod + ravel ds is < i * ds.prod + ds.prod := by omega
      _ = (i + 1) * ds.prod := by ring
      _ ≤ d * ds.prod := Nat.mul_le_mul_right _ h1

theorem unravel_ravel {s i : List ℕ} (h : InRange s i) : unravel s (ravel s i) = i := by
  induction h with
  | nil => rfl
  | @cons d i ds is h1 h2 ih =>
    have hlt := ravel_lt h2
    rw [ravel_cons _ _ _ _ (InRange.length h2), unravel]
    have hpos : 0 < ds.prod := by omega
    rw [Nat.mul_comm, Nat.mul_add_div hpos, Nat.div_eq_of_lt hlt, Nat.mul_add_mod, Nat.mod_eq_of_lt hlt, ih, add_zero]

theorem unravel_inRange {s : List ℕ} {f : ℕ} (h : f < s.prod) : InRange s (unravel s f) := by
  induction s generalizing f with
  | nil => exact List.Forall₂.nil
  | cons d ds ih =>
    rw [List.prod_cons] at h
    have hpos : 0 < ds.prod := by
      rcases Nat.eq_zero_or_pos ds.prod with h0 | h0
      · rw [h0] at h; omega
      · exact h0
    exact List.Forall₂.cons ((Nat.div_lt_iff_lt_mul hpos).mpr h) (ih (Nat.mod_lt _ hpos))

theorem ravel_unravel {s : List ℕ} {f : ℕ} (h : f < s.prod) : ravel s (unravel s f) = f := by
  induction s generalizing f with
  | nil => simp at h; subst h; rfl
  | cons d ds ih =>
    rw [List.prod_cons] at h
    have hpos : 0 < ds.prod := by
      rcases Nat.eq_zero_or_pos ds.prod with h0 | h0
      · rw [h0] at h; omega
      · exact h0
    have hm := Nat.mod_lt f hpos
    rw [unravel, ravel_cons _ _ _ _ (InRange.length (unravel_inRange hm)), ih hm, Nat.mul_comm, Nat.div_add_mod]

theorem ravel_inj {s i j : List ℕ} (hi : InRange s i) (hj : InRange s j) (h : ravel s i = ravel s j) : i = j := by
  rw [← unravel_ravel hi, ← unravel_ravel hj, h]

theorem ravel_append {s₁ s₂ i₁ i₂ : List ℕ} (h₁ : s₁.length = i₁.length) (h₂ : s₂.length = i₂.length) :
    ravel (s₁ ++ s₂) (i₁ ++ i₂) = ravel s₁ i₁ * s₂.prod + ravel s₂ i₂ := by
  rw [ravel, List.zip_append h₁, List.foldl_append, ravel_foldl_acc, List.map_fst_zip (by omega)]
  rfl

/-- Splitting one dimension of size `m * g` into two of sizes `m` and `g`. -/
theorem ravel_split {pre post ip iq : List ℕ} {m g b j : ℕ} (h₁ : pre.length = ip.length) (h₂ : post.length = iq.length) :
    ravel (pre ++ m :: g :: post) (ip ++ b :: j :: iq) = ravel (pre ++ (m * g) :: post) (ip ++ (b * g + j) :: iq) := by
  rw [ravel_append h₁ (by simp [h₂]), ravel_append h₁ (by simp [h₂]), ravel_cons _ _ _ _ (by simp [h₂]), ravel_cons _ _ _ _ h₂,
    ravel_cons _ _ _ _ h₂]
  simp only [List.prod_cons]
  ring

theorem padding_eq_replicate (shape : List ℕ) (gs : ℕ) (gd : ℤ) (h : shape.getD (pyIndex shape.length gd) 0 % gs = 0) :
    padding shape gs gd = List.replicate (2 * shape.length) 0 := by
  simp only [padding, h, ne_eq, not_true_eq_false, if_false, List.reverse_replicate]

/-- what `padding` requests for each dimension: nothing, except the missing amount after the group dimension -/
theorem padding_spec (shape : List ℕ) (gs g : ℕ) (gd : ℤ) (hg : g < shape.length) (hgd : gd = g ∨ gd = (g : ℤ) - shape.length) (d : ℕ)
    (hd : d < shape.length) :
    (padding shape gs gd).getD (2 * (shape.length - 1 - d)) 0 = 0 ∧
    (padding shape gs gd).getD (2 * (shape.length - 1 - d) + 1) 0 =
      if d = g ∧ shape.getD g 0 % gs ≠ 0 then gs - shape.getD g 0 % gs else 0 := by
  have hidx : pyIndex shape.length gd = g := by
    unfold pyIndex
    rcases hgd with h | h
    · rw [if_neg (by omega)]; omega
    · rw [if_pos (by omega)]; omega
  have hidx2 : pyIndex (2 * shape.length) (2 * gd) = 2 * g := by
    unfold pyIndex
    rcases hgd with h | h
    · rw [if_neg (by omega)]; omega
    · rw [if_pos (by omega)]; push_cast; omega
  by_cases hm : shape.getD g 0 % gs = 0
  · rw [padding_eq_replicate _ _ _ (by rw [hidx]; exact hm)]
    simp only [hm, ne_eq, not_true_eq_false, and_false, if_false]
    constructor <;> (rw [List.getD_eq_getElem?_getD, List.getElem?_replicate]; split_ifs <;> rfl)
  · have e : padding shape gs gd = ((List.replicate (2 * shape.length) 0).set (2 * g) (gs - shape.getD g 0 % gs)).reverse := by
      simp only [padding, hidx, hm, ne_eq, not_false_eq_true, if_true, List.length_replicate, hidx2]
    rw [e]
    constructor
    · rw [List.getD_eq_getElem?_getD, List.getElem?_reverse (by simp; omega), List.getElem?_set]
      simp only [List.length_set, List.length_replicate]
      rw [if_neg (by omega), List.getElem?_replicate]
      split_ifs <;> rfl
    · rw [List.getD_eq_getElem?_getD, List.getElem?_reverse (by simp; omega), List.getElem?_set]
      simp only [List.length_set, List.length_replicate]
      by_cases hdg : d = g
      · rw [if_pos (by omega), if_pos (by omega), if_pos ⟨hdg, hm⟩]; rfl
      · rw [if_neg (by omega), List.getElem?_replicate, if_pos (by omega), if_neg (fun h => hdg h.1)]; rfl

/-- amount of padding that makes `n` a multiple of `gs` -/
theorem padded_size (n gs : ℕ) (hgs : 1 ≤ gs) :
    n + (if n % gs ≠ 0 then gs - n % gs else 0) = (n + gs - 1) / gs * gs := by
  have h1 := Nat.div_add_mod n gs
  have h2 : n % gs < gs := Nat.mod_lt _ (by omega)
  by_cases hm : n % gs = 0
  · simp only [hm, ne_eq, not_true_eq_false, if_false, add_zero]
    have e : (n + gs - 1) / gs = n / gs := by
      rw [Nat.div_eq_iff (by omega)]
      have : n / gs * gs = n := by rw [Nat.mul_comm]; omega
      omega
    rw [e, Nat.mul_comm]; omega
  · simp only [hm, ne_eq, not_false_eq_true, if_true]
    have e : (n + gs - 1) / gs = n / gs + 1 := by
      rw [Nat.div_eq_iff (by omega)]
      have h3 : (n / gs + 1) * gs = n / gs * gs + gs := by ring
      have h4 : n / gs * gs = gs * (n / gs) := Nat.mul_comm _ _
      omega
    rw [e]
    have h3 : (n / gs + 1) * gs = gs * (n / gs) + gs := by ring
    omega

theorem InRange_append {s₁ s₂ i₁ i₂ : List ℕ} (h₁ : InRange s₁ i₁) (h₂ : InRange s₂ i₂) : InRange (s₁ ++ s₂) (i₁ ++ i₂) :=
  List.rel_append h₁ h₂

theorem InRange_append_left {s₁ s₂ i : List ℕ} (h : InRange (s₁ ++ s₂) i) :
    ∃ i₁ i₂, InRange s₁ i₁ ∧ InRange s₂ i₂ ∧ i = i₁ ++ i₂ := by
  induction s₁ generalizing i with
  | nil => exact ⟨[], i, List.Forall₂.nil, h, rfl⟩
  | cons a s ih =>
    cases h with
    | @cons _ b _ i h1 h2 =>
      obtain ⟨i₁, i₂, h3, h4, rfl⟩ := ih h2
      exact ⟨b :: i₁, i₂, List.Forall₂.cons h1 h3, h4, rfl⟩

theorem InRange.get {s i : List ℕ} (h : InRange s i) (d : ℕ) (hd : d < i.length) : i.getD d 0 < s.getD d 0 := by
  have hl := InRange.length h
  have := (List.forall₂_iff_get.mp h).2 d (by omega) hd
  rw [List.getD_eq_getElem?_getD, List.getD_eq_getElem?_getD, List.getElem?_eq_getElem hd, List.getElem?_eq_getElem (by omega)]
  simpa using this

/-- the padded tensor: shape and elements -/
theorem torchPad_spec (x : Tensor K) (pre post : List ℕ) (n gs : ℕ) (gd : ℤ) (hgs : 1 ≤ gs) (hsh : x.shape = pre ++ n :: post)
    (hgd : gd = pre.length ∨ gd = (pre.length : ℤ) - x.shape.length) :
    (torchPad x (padding x.shape gs gd)).shape = pre ++ ((n + gs - 1) / gs * gs) :: post ∧
    (torchPad x (padding x.shape gs gd)).WF ∧
    ∀ ip k iq, InRange pre ip → InRange post iq → k < (n + gs - 1) / gs * gs → x.WF →
      (torchPad x (padding x.shape gs gd)).at (ip ++ k :: iq) = if k < n then x.at (ip ++ k :: iq) else some 0 := by
  have hglen : pre.length < x.shape.length := by rw [hsh]; simp
  have hget : x.shape.getD pre.length 0 = n := by rw [hsh]; simp [List.getD_eq_getElem?_getD]
  have hspec := padding_spec x.shape gs pre.length gd hglen hgd
  rw [hget] at hspec
  have hshape : (torchPad x (padding x.shape gs gd)).shape = pre ++ ((n + gs - 1) / gs * gs) :: post := by
    apply List.ext_getElem
    · simp [torchPad, hsh]
    · intro d h1 h2
      have hd : d < x.shape.length := by simpa [torchPad] using h1
      simp only [torchPad, List.getElem_map, List.getElem_zipIdx, zero_add]
      rw [(hspec d hd).1, (hspec d hd).2, zero_add]
      by_cases hdp : d = pre.length
      · subst hdp
        have e1 : x.shape[pre.length] = n := by simp [hsh]
        have e2 := padded_size n gs hgs
        rw [e1]
        simp only [true_and]
        rw [e2]
        simp
      · rw [if_neg (by tauto), add_zero]
        rw [List.getElem_append]
        simp only [hsh]
        rw [List.getElem_append]
        split_ifs with hlt
        · rfl
        · obtain ⟨m, hm⟩ : ∃ m, d - pre.length = m + 1 := ⟨d - pre.length - 1, by omega⟩
          simp only [hm, List.getElem_cons_succ]
  refine ⟨hshape, by simp [Tensor.WF, torchPad], ?_⟩
  intro ip k iq hip hiq hk hwf
  set N := (n + gs - 1) / gs * gs
  have hin : InRange (pre ++ N :: post) (ip ++ k :: iq) := InRange_append hip (List.Forall₂.cons hk hiq)
  have hlt := ravel_lt hin
  have hlen : (ip ++ k :: iq).length = x.shape.length := by
    rw [hsh]; simp [InRange.length hip, InRange.length hiq]
  rw [Tensor.at, hshape]
  have hdata : (torchPad x (padding x.shape gs gd)).data[ravel (pre ++ N :: post) (ip ++ k :: iq)]? =
      some (if (ip ++ k :: iq).zipIdx.all (fun di => (padding x.shape gs gd).getD (2 * (x.shape.length - 1 - di.2)) 0 ≤ di.1 &&
          di.1 < (padding x.shape gs gd).getD (2 * (x.shape.length - 1 - di.2)) 0 + x.shape.getD di.2 0) then
        (x.at ((ip ++ k :: iq).zipIdx.map fun di => di.1 - (padding x.shape gs gd).getD (2 * (x.shape.length - 1 - di.2)) 0)).getD 0
        else 0) := by
    have hu := unravel_ravel hin
    have hs' := hshape
    simp only [torchPad] at hs' ⊢
    rw [List.getElem?_map, hs', List.getElem?_range hlt]
    simp only [Option.map_some, hu]
  rw [hdata]
  have hmap : ((ip ++ k :: iq).zipIdx.map fun di => di.1 - (padding x.shape gs gd).getD (2 * (x.shape.length - 1 - di.2)) 0) = ip ++ k :: iq := by
    apply List.ext_getElem
    · simp
    · intro d h1 h2
      have hd : d < x.shape.length := by rw [← hlen]; exact h2
      simp only [List.getElem_map, List.getElem_zipIdx, zero_add, (hspec d hd).1, Nat.sub_zero]
  have hall : ((ip ++ k :: iq).zipIdx.all (fun di => (padding x.shape gs gd).getD (2 * (x.shape.length - 1 - di.2)) 0 ≤ di.1 &&
          di.1 < (padding x.shape gs gd).getD (2 * (x.shape.length - 1 - di.2)) 0 + x.shape.getD di.2 0)) = true ↔ k < n := by
    rw [List.all_eq_true]
    constructor
    · intro h
      have := h (k, ip.length) (by
        rw [List.mem_zipIdx_iff_getElem?]
        simp)
      have hpl : ip.length = pre.length := (InRange.length hip).symm
      rw [(hspec ip.length (by rw [hpl]; exact hglen)).1, hpl, hget] at this
      simpa using this
    · intro hkn ⟨i, d⟩ hmem
      rw [List.mem_zipIdx_iff_getElem?] at hmem
      have hd : d < (ip ++ k :: iq).length := (List.getElem?_eq_some_iff.mp hmem).1
      have hd' : d < x.shape.length := by rw [← hlen]; exact hd
      rw [(hspec d hd').1]
      have hin' : InRange x.shape (ip ++ k :: iq) := by rw [hsh]; exact InRange_append hip (List.Forall₂.cons hkn hiq)
      have := InRange.get hin' d hd
      rw [List.getD_eq_getElem?_getD, hmem] at this
      simpa using this
  by_cases hkn : k < n
  · rw [if_pos (hall.mpr hkn), if_pos hkn, hmap]
    have hin' : InRange x.shape (ip ++ k :: iq) := by rw [hsh]; exact InRange_append hip (List.Forall₂.cons hkn hiq)
    have hlt' : ravel x.shape (ip ++ k :: iq) < x.data.length := by rw [hwf]; exact ravel_lt hin'
    rw [Tensor.at, List.getElem?_eq_getElem hlt']; rfl
  · rw [if_neg (fun h => hkn (hall.mp h)), if_neg hkn]

end Brevitas

namespace Brevitas

open Spec

variable {K : Type*} [Field K]

theorem insertIdx_append_zero (pre post : List ℕ) (g : ℕ) : (pre ++ post).insertIdx pre.length g = pre ++ g :: post := by
  induction pre with
  | nil => simp
  | cons a l ih => simp [ih]

theorem insertIdx_append_one (pre post : List ℕ) (m g : ℕ) : (pre ++ m :: post).insertIdx (pre.length + 1) g = pre ++ m :: g :: post := by
  have := insertIdx_append_zero (pre ++ [m]) post g
  simpa using this

theorem pyInsert_mid (pre post : List ℕ) (m g : ℕ) (i : ℤ) (hi : i = (pre.length : ℤ) + 1) :
    pyInsert (pre ++ m :: post) i g = pre ++ m :: g :: post := by
  have e : (if i < 0 then (i + (pre ++ m :: post).length).toNat else min i.toNat (pre ++ m :: post).length) = pre.length + 1 := by
    rw [if_neg (by omega)]
    simp only [List.length_append, List.length_cons]
    omega
  rw [pyInsert, e]
  exact insertIdx_append_one pre post m g

theorem pyInsert_last (pre : List ℕ) (m g : ℕ) : pyInsert (pre ++ [m]) (-1) g = pre ++ [g, m] := by
  have e : (if (-1 : ℤ) < 0 then (-1 + ((pre ++ [m]).length : ℤ)).toNat else min (-1 : ℤ).toNat (pre ++ [m]).length) = pre.length := by
    simp
  rw [pyInsert, e]
  exact insertIdx_append_zero pre [m] g

theorem expandedGroupwiseShape_eq (pre post : List ℕ) (n gs : ℕ) :
    expandedGroupwiseShape (pre ++ n :: post) gs pre.length = pre ++ ((n + gs - 1) / gs) :: gs :: post := by
  have e : (pre ++ n :: post).set pre.length (((pre ++ n :: post).getD pre.length 0 + gs - 1) / gs) = pre ++ ((n + gs - 1) / gs) :: post := by
    simp [List.getD_eq_getElem?_getD]
  rw [expandedGroupwiseShape, e]
  exact pyInsert_mid _ _ _ _ _ rfl

/-- splitting a dimension: the elements of the view -/
theorem view_split (t : Tensor K) (pre post : List ℕ) (m g : ℕ) (hsh : t.shape = pre ++ (m * g) :: post) :
    ∃ y, t.view (pre ++ m :: g :: post) = some y ∧ y.shape = pre ++ m :: g :: post ∧ y.data = t.data ∧
      ∀ ip b j iq, InRange pre ip → InRange post iq → y.at (ip ++ b :: j :: iq) = t.at (ip ++ (b * g + j) :: iq) := by
  refine ⟨⟨pre ++ m :: g :: post, t.data⟩, ?_, rfl, rfl, ?_⟩
  · rw [Tensor.view, if_pos]
    rw [hsh]; simp [mul_assoc]
  · intro ip b j iq hip hiq
    rw [Tensor.at, Tensor.at, hsh]
    simp only []
    rw [ravel_split (InRange.length hip) (InRange.length hiq)]

end Brevitas

namespace Brevitas

open Spec

variable {K : Type*} [Field K]

theorem pyIndex_nonneg (n i : ℕ) : pyIndex n (i : ℤ) = i := by
  rw [pyIndex, if_neg (by omega)]; simp

/-- the dynamic view for a non-negative group dimension -/
theorem dynamicView_spec (x : Tensor K) (pre post : List ℕ) (n gs : ℕ) (hgs : 1 ≤ gs) (hsh : x.shape = pre ++ n :: post) (hwf : x.WF) :
    ∃ y, dynamicOverSubChannelBlockView gs (pre.length : ℤ) x = some y ∧ y.shape = pre ++ ((n + gs - 1) / gs) :: gs :: post ∧ y.WF ∧
      ∀ ip b j iq, InRange pre ip → InRange post iq → b < (n + gs - 1) / gs → j < gs →
        y.at (ip ++ b :: j :: iq) = if b * gs + j < n then x.at (ip ++ (b * gs + j) :: iq) else some 0 := by
  obtain ⟨h1, h2, h3⟩ := torchPad_spec x pre post n gs (pre.length : ℤ) hgs hsh (Or.inl rfl)
  set t := torchPad x (padding x.shape gs (pre.length : ℤ)) with ht
  obtain ⟨y, hy, hys, hyd, hya⟩ := view_split t pre post ((n + gs - 1) / gs) gs h1
  refine ⟨y, ?_, hys, ?_, ?_⟩
  · rw [dynamicOverSubChannelBlockView]
    simp only [← ht]
    rw [← hy, h1, pyIndex_nonneg, if_pos (by omega)]
    congr 1
    have e : (pre ++ ((n + gs - 1) / gs * gs) :: post).set pre.length ((pre ++ ((n + gs - 1) / gs * gs) :: post).getD pre.length 0 / gs) =
        pre ++ ((n + gs - 1) / gs) :: post := by
      simp [List.getD_eq_getElem?_getD, Nat.mul_div_cancel _ (show 0 < gs by omega)]
    rw [e]
    exact pyInsert_mid _ _ _ _ _ rfl
  · unfold Tensor.WF at h2 ⊢
    rw [hyd, h2, h1, hys]; simp [mul_assoc]
  · intro ip b j iq hip hiq hb hj
    rw [hya ip b j iq hip hiq]
    exact h3 ip _ iq hip hiq (by
      calc b * gs + j < b * gs + gs := by omega
        _ = (b + 1) * gs := by ring
        _ ≤ _ := Nat.mul_le_mul_right _ hb) hwf

/-- the dynamic view for `group_dim = -1` -/
theorem dynamicView_last_spec (x : Tensor K) (pre : List ℕ) (n gs : ℕ) (hgs : 1 ≤ gs) (hsh : x.shape = pre ++ [n]) (hwf : x.WF) :
    ∃ y, dynamicOverSubChannelBlockView gs (-1) x = some y ∧ y.shape = pre ++ [gs, (n + gs - 1) / gs] ∧ y.WF ∧
      ∀ ip a c, InRange pre ip → a < gs → c < (n + gs - 1) / gs →
        y.at (ip ++ [a, c]) =
          if a * ((n + gs - 1) / gs) + c < n then x.at (ip ++ [a * ((n + gs - 1) / gs) + c]) else some 0 := by
  obtain ⟨h1, h2, h3⟩ := torchPad_spec x pre [] n gs (-1) hgs hsh (Or.inr (by rw [hsh]; simp))
  set t := torchPad x (padding x.shape gs (-1)) with ht
  set m := (n + gs - 1) / gs with hm
  obtain ⟨y, hy, hys, hyd, hya⟩ := view_split t pre [] gs m (by rw [h1, Nat.mul_comm])
  refine ⟨y, ?_, hys, ?_, ?_⟩
  · rw [dynamicOverSubChannelBlockView]
    simp only [← ht]
    rw [← hy, h1, if_neg (by omega)]
    congr 1
    have hp : pyIndex (pre ++ [m * gs]).length (-1) = pre.length := by
      simp [pyIndex]
    rw [hp]
    have e : (pre ++ [m * gs]).set pre.length ((pre ++ [m * gs]).getD pre.length 0 / gs) = pre ++ [m] := by
      simp [List.getD_eq_getElem?_getD, Nat.mul_div_cancel _ (show 0 < gs by omega)]
    rw [e]
    exact pyInsert_last _ _ _
  · unfold Tensor.WF at h2 ⊢
    rw [hyd, h2, h1, hys]; simp [mul_comm]
  · intro ip a c hip ha hc
    rw [hya ip a c [] hip List.Forall₂.nil]
    refine h3 ip _ [] hip List.Forall₂.nil ?_ hwf
    calc a * m + c < a * m + m := by omega
      _ = (a + 1) * m := by ring
      _ ≤ gs * m := Nat.mul_le_mul_right _ ha
      _ = m * gs := Nat.mul_comm _ _

/-- `WF` tensors have an element at each legal index -/
theorem Tensor.at_isSome (t : Tensor K) (hwf : t.WF) {idx : List ℕ} (h : InRange t.shape idx) : ∃ v, t.at idx = some v := by
  have : ravel t.shape idx < t.data.length := by rw [hwf]; exact ravel_lt h
  exact ⟨_, List.getElem?_eq_getElem this⟩

theorem tabulate_at (shape : List ℕ) (F : List ℕ → K) {idx : List ℕ} (h : InRange shape idx) :
    (Tensor.mk shape ((List.range shape.prod).map fun f => F (unravel shape f))).at idx = some (F idx) := by
  rw [Tensor.at]
  simp only [List.getElem?_map, List.getElem?_range (ravel_lt h), Option.map_some, unravel_ravel h]

variable [LinearOrder K]

/-- broadcasting the reduction over dimension `pre.length` of a tensor of shape `pre ++ d :: post` -/
theorem amax_expand_at (y : Tensor K) (pre post : List ℕ) (d : ℕ) (hys : y.shape = pre ++ d :: post) {ip iq : List ℕ} {k : ℕ}
    (hip : InRange pre ip) (hiq : InRange post iq) (hk : k < d) :
    ((y.amaxKeepdim pre.length).expandTo y.shape).at (ip ++ k :: iq) =
      some (((List.range d).map fun j => |(y.at (ip ++ j :: iq)).getD 0|).foldr max 0) := by
  have hin : InRange y.shape (ip ++ k :: iq) := by rw [hys]; exact InRange_append hip (List.Forall₂.cons hk hiq)
  rw [Tensor.expandTo]
  rw [tabulate_at y.shape (fun i => ((y.amaxKeepdim pre.length).at
    (List.zipWith (fun s i => if s = 1 then 0 else i) (y.amaxKeepdim pre.length).shape i)).getD 0) hin]
  have hsz : ∀ (s i : List ℕ), InRange s i → List.zipWith (fun s i => if s = 1 then 0 else i) s i = i := by
    intro s i h
    induction h with
    | nil => rfl
    | @cons a b s i h1 h2 ih =>
      rw [List.zipWith_cons_cons, ih]
      split_ifs with h
      · congr 1; omega
      · rfl
  have hshape : (y.amaxKeepdim pre.length).shape = pre ++ 1 :: post := by
    simp [Tensor.amaxKeepdim, hys]
  have hzip : List.zipWith (fun s i => if s = 1 then 0 else i) (y.amaxKeepdim pre.length).shape (ip ++ k :: iq) = ip ++ 0 :: iq := by
    rw [hshape, List.zipWith_append (InRange.length hip), List.zipWith_cons_cons, hsz _ _ hip, hsz _ _ hiq]; rfl
  rw [hzip]
  have hin0 : InRange (y.shape.set pre.length 1) (ip ++ 0 :: iq) := by
    rw [hys]; simp only [List.set_append_right _ _ (le_refl _), Nat.sub_self, List.set_cons_zero]
    exact InRange_append hip (List.Forall₂.cons (by omega) hiq)
  have := tabulate_at (y.shape.set pre.length 1)
    (fun idx => ((List.range (y.shape.getD pre.length 0)).map fun j => |(y.at (idx.set pre.length j)).getD 0|).foldr max 0) hin0
  rw [Tensor.amaxKeepdim]
  simp only []
  rw [this, Option.getD_some]
  congr 2
  have hd : y.shape.getD pre.length 0 = d := by simp [hys, List.getD_eq_getElem?_getD]
  rw [hd]
  apply List.map_congr_left
  intro j _
  have : (ip ++ 0 :: iq).set pre.length j = ip ++ j :: iq := by
    rw [InRange.length hip]; simp
  rw [this]

theorem flatten2_at (t : Tensor K) (pre post : List ℕ) (m g : ℕ) (hs : t.shape = pre ++ m :: g :: post) {ip iq : List ℕ} {b j : ℕ}
    (hip : InRange pre ip) (hiq : InRange post iq) :
    (t.flatten2 pre.length).at (ip ++ (b * g + j) :: iq) = t.at (ip ++ b :: j :: iq) := by
  have hs2 : (t.flatten2 pre.length).shape = pre ++ (m * g) :: post := by
    simp [Tensor.flatten2, hs, List.getD_eq_getElem?_getD, List.getElem?_append_right]
  rw [Tensor.at, Tensor.at, hs2, hs, ravel_split (InRange.length hip) (InRange.length hiq)]
  rfl

theorem foldr_max_zero_spec [IsStrictOrderedRing K] (l : List K) (hl : ∀ v ∈ l, 0 ≤ v) :
    (∀ v ∈ l, v ≤ l.foldr max 0) ∧ (l ≠ [] → l.foldr max 0 ∈ l) := by
  induction l with
  | nil => simp
  | cons a l ih =>
    obtain ⟨h1, h2⟩ := ih (fun v hv => hl v (List.mem_cons_of_mem _ hv))
    refine ⟨?_, ?_⟩
    · intro v hv
      rcases List.mem_cons.mp hv with rfl | hv
      · exact le_max_left _ _
      · exact le_trans (h1 v hv) (le_max_right _ _)
    · intro _
      rw [List.foldr_cons]
      rcases eq_or_ne l [] with rfl | hne
      · simp [hl a (List.mem_cons_self)]
      · rcases max_choice a (l.foldr max 0) with h | h
        · rw [h]; exact List.mem_cons_self
        · rw [h]; exact List.mem_cons_of_mem _ (h2 hne)

end Brevitas
