import Verif.Model.Checkpoint
import Verif.Lemmas.Scaling

/-!
# Loading checkpoints: helper lemmas
-/

namespace Brevitas.Checkpoint

variable {V : Type*}

theorem get_nil (k : Key) : Dict.get ([] : Dict V) k = none := rfl

theorem get_cons (a : Key) (v : V) (d : Dict V) (k : Key) : Dict.get ((a, v) :: d) k = if a = k then some v else Dict.get d k := by
  unfold Dict.get
  rw [List.lookup_cons]
  by_cases h : a = k
  · subst h
    simp
  · have : (k == a) = false := by simpa using fun e => h e.symm
    rw [this, if_neg h]

theorem get_filter (p : Key → Bool) (d : Dict V) (k : Key) : Dict.get (d.filter fun e => p e.1) k = if p k then Dict.get d k else none := by
  induction d with
  | nil => simp [get_nil]
  | cons e d ih =>
    obtain ⟨a, v⟩ := e
    rw [List.filter_cons]
    by_cases hp : p a = true
    · simp only [hp, if_true]
      rw [get_cons, get_cons, ih]
      by_cases h : a = k
      · subst h
        simp [hp]
      · simp only [if_neg h]
    · simp only [hp]
      rw [get_cons]
      by_cases h : a = k
      · subst h
        have : p a = false := by simpa using hp
        simp [this, ih]
      · rw [if_neg h]
        exact ih

theorem get_del (d : Dict V) (k j : Key) : (d.del k).get j = if j = k then none else d.get j := by
  unfold Dict.del
  rw [get_filter (fun a => a != k)]
  by_cases h : j = k <;> simp [h]

theorem get_append (d : Dict V) (k : Key) (v : V) (j : Key) : Dict.get (d ++ [(k, v)]) j = (d.get j).or (if k = j then some v else none) := by
  induction d with
  | nil => rw [List.nil_append, get_cons, get_nil]; rfl
  | cons e d ih =>
    obtain ⟨a, w⟩ := e
    rw [List.cons_append, get_cons, get_cons, ih]
    by_cases h : a = j <;> simp [h]

theorem get_put (d : Dict V) (k : Key) (v : V) (j : Key) : (d.put k v).get j = if j = k then some v else d.get j := by
  unfold Dict.put
  by_cases hs : (d.get k).isSome = true
  · rw [if_pos hs]
    have key : ∀ d : Dict V, Dict.get (d.map fun e => if e.1 == k then (k, v) else e) j = if j = k then (d.get k).map fun _ => v else d.get j := by
      intro d
      induction d with
      | nil => simp [get_nil]
      | cons e d ih =>
        obtain ⟨a, w⟩ := e
        rw [List.map_cons]
        by_cases ha : a = k
        · subst ha
          simp only [beq_self_eq_true, if_true]
          rw [get_cons, get_cons, get_cons, ih]
          by_cases hj : j = a
          · subst hj; simp
          · rw [if_neg (fun e => hj e.symm), if_neg hj, if_neg hj, if_neg (fun e => hj e.symm)]
        · have : (a == k) = false := by simpa using ha
          simp only [this, Bool.false_eq_true, if_false]
          rw [get_cons, get_cons, get_cons, ih, if_neg ha]
          by_cases hj : j = k
          · subst hj; simp [ha]
          · simp [hj]
    rw [key]
    obtain ⟨w, hw⟩ := Option.isSome_iff_exists.1 hs
    rw [hw]
    rfl
  · rw [if_neg hs, get_append]
    have hn : d.get k = none := by simpa using hs
    by_cases hj : j = k
    · subst hj; simp [hn]
    · rw [if_neg hj, if_neg (fun e => hj e.symm)]
      cases d.get j <;> rfl

theorem mem_keys (d : Dict V) (k : Key) : k ∈ d.map Prod.fst ↔ (d.get k).isSome := by
  induction d with
  | nil => simp [get_nil]
  | cons e d ih =>
    obtain ⟨a, v⟩ := e
    rw [List.map_cons, List.mem_cons, get_cons, ih]
    by_cases h : a = k
    · subst h; simp
    · simp only [if_neg h, or_iff_right (fun e : k = a => h e.symm)]

/-- The loop that moves entries. -/
theorem moves {ρ : Key → Key} (ks : List Key) (d : Dict V) (hnd : ks.Nodup) (hin : ∀ k ∈ ks, (d.get k).isSome)
    (hfresh : ∀ k ∈ ks, d.get (ρ k) = none) (hinj : ∀ a ∈ ks, ∀ b ∈ ks, ρ a = ρ b → a = b) :
    ∃ d', ks.foldlM (move ρ) d = some d' ∧ (∀ k ∈ ks, d'.get (ρ k) = d.get k) ∧ (∀ k ∈ ks, d'.get k = none) ∧
      ∀ k, k ∉ ks → (∀ j ∈ ks, ρ j ≠ k) → d'.get k = d.get k := by
  induction ks generalizing d with
  | nil => exact ⟨d, rfl, by simp, by simp, fun _ _ _ => rfl⟩
  | cons k ks ih =>
    obtain ⟨v, hv⟩ := Option.isSome_iff_exists.1 (hin k (by simp))
    rw [List.nodup_cons] at hnd
    have hk : ρ k ≠ k := fun e => by have := hfresh k (by simp); rw [e, hv] at this; simp at this
    have get1 : ∀ j, ((d.del k).put (ρ k) v).get j = if j = ρ k then some v else if j = k then none else d.get j := by
      intro j
      rw [get_put, get_del]
    have hks : ∀ j ∈ ks, j ≠ k ∧ j ≠ ρ k := by
      intro j hj
      refine ⟨fun e => hnd.1 (e ▸ hj), fun e => ?_⟩
      have h1 := hin j (by simp [hj])
      rw [e, hfresh k (by simp)] at h1
      simp at h1
    have hρ : ∀ j ∈ ks, ρ j ≠ ρ k := fun j hj e => hnd.1 (hinj j (by simp [hj]) k (by simp) e ▸ hj)
    have hρk : ∀ j ∈ ks, ρ j ≠ k := fun j hj e => by
      have := hfresh j (by simp [hj])
      rw [e, hv] at this
      simp at this
    obtain ⟨d', h1, h2, h3, h4⟩ := ih ((d.del k).put (ρ k) v) hnd.2
      (fun j hj => by rw [get1, if_neg (hks j hj).2, if_neg (hks j hj).1]; exact hin j (by simp [hj]))
      (fun j hj => by rw [get1, if_neg (hρ j hj), if_neg (hρk j hj)]; exact hfresh j (by simp [hj]))
      (fun a ha b hb => hinj a (by simp [ha]) b (by simp [hb]))
    refine ⟨d', ?_, ?_, ?_, ?_⟩
    · rw [List.foldlM_cons]
      change ((d.get k).map fun v => (d.del k).put (ρ k) v) >>= _ = _
      rw [hv]
      exact h1
    · intro j hj
      rcases List.mem_cons.1 hj with rfl | hj
      · rw [h4 (ρ j) (fun hm => (hks _ hm).2 rfl) (fun i hi => hρ i hi), get1, if_pos rfl, hv]
      · rw [h2 j hj, get1, if_neg (hks j hj).2, if_neg (hks j hj).1]
    · intro j hj
      rcases List.mem_cons.1 hj with rfl | hj
      · rw [h4 j hnd.1 hρk, get1, if_neg (fun e => hk e.symm), if_pos rfl]
      · exact h3 j hj
    · intro j hj hne
      rw [h4 j (fun h => hj (by simp [h])) (fun i hi => hne i (by simp [hi])), get1,
        if_neg (fun e => hne k (by simp) e.symm), if_neg (fun e => hj (by simp [e]))]

theorem isPrefixOf_iff (a b : Key) : a.isPrefixOf b = true ↔ ∃ t, b = a ++ t := by
  rw [List.isPrefixOf_iff_prefix]
  exact ⟨fun ⟨t, h⟩ => ⟨t, h.symm⟩, fun ⟨t, h⟩ => ⟨t, h.symm⟩⟩

theorem isSuffixOf_iff (a b : Key) : a.isSuffixOf b = true ↔ ∃ t, b = t ++ a := by
  rw [List.isSuffixOf_iff_suffix]
  exact ⟨fun ⟨t, h⟩ => ⟨t, h.symm⟩, fun ⟨t, h⟩ => ⟨t, h.symm⟩⟩

/-- The scale of a statistics-based quantiser is not negative. -/
theorem combine_init (r : Restrict) (hr : ∀ f, r ≠ .int f) (m : Option ℝ) (s t : ℝ) (hs : 0 ≤ s) (ht : 0 < t) :
    0 ≤ restrictClamp r m (r.combine (r.init s) (r.init t)) := by
  have h : 0 ≤ r.forward (r.combine (r.init s) (r.init t)) := by
    cases r with
    | fp => exact div_nonneg hs ht.le
    | int f => exact absurd rfl (hr f)
    | logFp =>
      simp only [Restrict.forward, Restrict.init]
      cases Restrict.combine .logFp (log2 s) (log2 t) with
      | none => exact le_refl _
      | some a => exact Real.rpow_nonneg (by norm_num) _
    | powerOfTwo f =>
      simp only [Restrict.forward, Restrict.init]
      cases Restrict.combine (.powerOfTwo f) (log2 s) (log2 t) with
      | none => exact le_refl _
      | some a => exact Real.rpow_nonneg (by norm_num) _
  unfold restrictClamp clampMinVal
  cases m with
  | none => exact h
  | some m =>
    simp only
    split_ifs
    · exact h
    · unfold clampMin
      exact le_trans h (le_max_left _ _)

end Brevitas.Checkpoint
