import Verif.Spec.FusedAttn
import Mathlib.Algebra.Field.Rat
import Mathlib.Tactic.Linarith
import Mathlib.Analysis.SpecialFunctions.Sqrt

/-!
# C131: fused attention projections
-/

set_option linter.unusedSectionVars false

namespace Brevitas.Props

open Brevitas.FusedAttn

variable {K : Type} [Field K]

/-- A state dict of a module with these parameters: those entries and no others, each with its shape. -/
structure StateOf (c : Config) (keys : List Key) (d : Dict K) : Prop where
  keys : ∀ k, (get d k).isSome ↔ k ∈ keys
  shape : ∀ e ∈ d, hasShape e.2 (c.shape e.1) = true

private theorem get_cons (k k' : Key) (m : Mat K) (d : Dict K) : get ((k', m) :: d) k = if k' = k then some m else get d k := by
  unfold FusedAttn.get
  by_cases h : k' = k
  · rw [List.find?_cons_of_pos (by simpa using h), if_pos h]; rfl
  · rw [List.find?_cons_of_neg (by simpa using h), if_neg h]

private theorem get_del (d : Dict K) (k k' : Key) : get (del d k') k = if k = k' then none else get d k := by
  induction d with
  | nil => simp [FusedAttn.get, del]
  | cons e d ih =>
    obtain ⟨k₀, m⟩ := e
    unfold del at ih ⊢
    by_cases h : k₀ = k'
    · rw [List.filter_cons_of_neg (by simpa using h), ih, get_cons]
      by_cases hk : k = k'
      · rw [if_pos hk, if_pos hk]
      · rw [if_neg hk, if_neg hk, if_neg (fun h' => hk (h'.symm.trans h))]
    · rw [List.filter_cons_of_pos (by simpa using h), get_cons, get_cons, ih]
      by_cases hk : k = k'
      · rw [if_pos hk, if_pos hk, if_neg (fun h' => h (h'.trans hk))]
      · rw [if_neg hk, if_neg hk]

private theorem get_set (d : Dict K) (k k' : Key) (m : Mat K) : get (FusedAttn.set d k' m) k = if k' = k then some m else get d k := by
  unfold FusedAttn.set
  rw [get_cons, get_del]
  by_cases h : k' = k
  · rw [if_pos h, if_pos h]
  · rw [if_neg h, if_neg h, if_neg (fun h' => h h'.symm)]

private theorem mem_of_get {d : Dict K} {k : Key} {m : Mat K} (h : get d k = some m) : (k, m) ∈ d := by
  unfold FusedAttn.get at h
  obtain ⟨e, he, rfl⟩ := Option.map_eq_some_iff.mp h
  have h1 := List.find?_some he
  have h2 := List.mem_of_find?_eq_some he
  simp only [decide_eq_true_eq] at h1
  rw [← h1]
  exact h2

private theorem get_isSome_of_mem {d : Dict K} {e : Key × Mat K} (h : e ∈ d) : (get d e.1).isSome := by
  unfold FusedAttn.get
  rw [Option.isSome_map, List.find?_isSome]
  exact ⟨e, h, by simp⟩

private theorem get_map (keys : List Key) (f : Key → Mat K) (k : Key) : get (keys.map fun k => (k, f k)) k = if k ∈ keys then some (f k) else none := by
  induction keys with
  | nil => rfl
  | cons a l ih =>
    rw [List.map_cons, get_cons, ih]
    by_cases h : a = k
    · subst h; simp
    · rw [if_neg h]
      simp [List.mem_cons, Ne.symm h]

private theorem mem_del {d : Dict K} {k : Key} {e : Key × Mat K} : e ∈ del d k ↔ e ∈ d ∧ e.1 ≠ k := by
  simp [del]

private theorem loadStrict_ok (c : Config) (keys : List Key) (d : Dict K) (h : StateOf c keys d) :
    loadStrict c keys d = .ok (keys.map fun k => (k, (get d k).getD [])) ∧ ∀ k, get (keys.map fun k => (k, (get d k).getD [])) k = get d k := by
  constructor
  · unfold loadStrict
    rw [if_pos]
    simp only [Bool.and_eq_true, List.all_eq_true, decide_eq_true_eq]
    exact ⟨⟨fun k hk => (h.keys k).mpr hk, fun e he => (h.keys e.1).mp (get_isSome_of_mem he)⟩, h.shape⟩
  · intro k
    rw [get_map]
    by_cases hk : k ∈ keys
    · rw [if_pos hk]
      obtain ⟨m, hm⟩ := Option.isSome_iff_exists.mp ((h.keys k).mpr hk)
      rw [hm]; rfl
    · rw [if_neg hk]
      cases hg : get d k with
      | none => rfl
      | some m => exact absurd ((h.keys k).mp (by rw [hg]; rfl)) hk

private theorem cat_ok (ms : List (Mat K)) (n : ℕ) (h : ∀ m ∈ ms, ∀ r ∈ m, r.length = n) : cat ms = .ok ms.flatten := by
  have hall : ∀ r ∈ ms.flatten, r.length = n := by
    intro r hr
    obtain ⟨m, hm, hr⟩ := List.mem_flatten.mp hr
    exact h m hm r hr
  unfold cat
  simp only
  rw [if_pos]
  intro r hr
  cases hf : ms.flatten with
  | nil => rw [hf] at hr; cases hr
  | cons a l =>
    rw [hf] at hall hr
    rw [List.headD_cons, hall r hr, hall a List.mem_cons_self]

private theorem shape_of (c : Config) (keys : List Key) (d : Dict K) (h : StateOf c keys d) {k : Key} {m : Mat K} (hg : get d k = some m) :
    m.length = (c.shape k).1 ∧ ∀ r ∈ m, r.length = (c.shape k).2 := by
  have := h.shape _ (mem_of_get hg)
  simp only [hasShape, Bool.and_eq_true, decide_eq_true_eq, List.all_eq_true] at this
  exact this

private theorem hasShape_iff (m : Mat K) (a b : ℕ) : hasShape m (a, b) = true ↔ m.length = a ∧ ∀ r ∈ m, r.length = b := by
  simp [hasShape]

private theorem mem_restKeys (c : Config) (k : Key) : k ∈ c.restKeys ↔ ∃ i < c.rest.length, k = .rest i := by
  simp [Config.restKeys, eq_comm]

private theorem hasQkv_iff (c : Config) : c.hasQkv = true ↔ c.query = c.cross := by
  simp [Config.hasQkv, Config.shape]

private theorem chunk_size (k n : ℕ) (hk : 0 < k) (hn : 0 < n) : (k * n + k - 1) / k = n ∧ (k * n + n - 1) / n = k := by
  constructor
  · have : k * n + k - 1 = (k - 1) + k * n := by omega
    rw [this, Nat.add_mul_div_left _ _ hk, Nat.div_eq_of_lt (by omega)]
    omega
  · have : k * n + n - 1 = (n - 1) + n * k := by rw [Nat.mul_comm n k]; omega
    rw [this, Nat.add_mul_div_left _ _ hn, Nat.div_eq_of_lt (by omega)]
    omega

private theorem chunk_three (a b c : List K) (n : ℕ) (hn : 0 < n) (ha : a.length = n) (hb : b.length = n) (hc : c.length = n) : chunk 3 (a ++ (b ++ c)) = [a, b, c] := by
  have hl : (a ++ (b ++ c)).length = 3 * n := by simp only [List.length_append]; omega
  obtain ⟨h1, h2⟩ := chunk_size 3 n (by norm_num) hn
  unfold chunk
  simp only [hl, h1, h2]
  have hr : List.range 3 = [0, 1, 2] := rfl
  rw [hr]
  simp only [List.map_cons, List.map_nil]
  have e0 : (a ++ (b ++ c)).drop (0 * n) = a ++ (b ++ c) := by simp
  have e1 : (a ++ (b ++ c)).drop (1 * n) = b ++ c := by rw [Nat.one_mul, ← ha, List.drop_left]
  have e2 : (a ++ (b ++ c)).drop (2 * n) = c := by
    have : 2 * n = (a ++ b).length := by simp only [List.length_append]; omega
    rw [this, ← List.append_assoc, List.drop_left]
  rw [e0, e1, e2]
  have t0 : (a ++ (b ++ c)).take n = a := by rw [← ha, List.take_left]
  have t1 : (b ++ c).take n = b := by rw [← hb, List.take_left]
  have t2 : c.take n = c := by rw [← hc, List.take_length]
  rw [t0, t1, t2]

private theorem chunk_two (a b : List K) (n : ℕ) (hn : 0 < n) (ha : a.length = n) (hb : b.length = n) : chunk 2 (a ++ b) = [a, b] := by
  have hl : (a ++ b).length = 2 * n := by simp only [List.length_append]; omega
  obtain ⟨h1, h2⟩ := chunk_size 2 n (by norm_num) hn
  unfold chunk
  simp only [hl, h1, h2]
  have hr : List.range 2 = [0, 1] := rfl
  rw [hr]
  simp only [List.map_cons, List.map_nil]
  have e0 : (a ++ b).drop (0 * n) = a ++ b := by simp
  have e1 : (a ++ b).drop (1 * n) = b := by rw [Nat.one_mul, ← ha, List.drop_left]
  rw [e0, e1]
  have t0 : (a ++ b).take n = a := by rw [← ha, List.take_left]
  have t1 : b.take n = b := by rw [← hb, List.take_length]
  rw [t0, t1]

private theorem mapM_ok {α β : Type} (f : α → Except Err β) (g : α → β) (l : List α) (h : ∀ x ∈ l, f x = .ok (g x)) : l.mapM f = .ok (l.map g) := by
  induction l with
  | nil => rfl
  | cons a l ih =>
    rw [List.mapM_cons, h a List.mem_cons_self, ih (fun x hx => h x (List.mem_cons_of_mem _ hx))]
    rfl

/-- The state dict of an `Attention` without bias. -/
private theorem original_entries (c : Config) (hb : c.bias = false) (d : Dict K) (hd : StateOf c c.originalKeys d) :
    ∃ q k v, get d .qW = some q ∧ get d .kW = some k ∧ get d .vW = some v ∧ ∀ key, (get d key).isSome ↔ key = .qW ∨ key = .kW ∨ key = .vW ∨ key ∈ c.restKeys := by
  have hk : ∀ key, (get d key).isSome ↔ key = .qW ∨ key = .kW ∨ key = .vW ∨ key ∈ c.restKeys := by
    intro key
    rw [hd.keys key]
    simp [Config.originalKeys, hb]
  obtain ⟨q, hq⟩ := Option.isSome_iff_exists.mp ((hk .qW).mpr (by simp))
  obtain ⟨k, hkk⟩ := Option.isSome_iff_exists.mp ((hk .kW).mpr (by simp))
  obtain ⟨v, hv⟩ := Option.isSome_iff_exists.mp ((hk .vW).mpr (by simp))
  exact ⟨q, k, v, hq, hkk, hv, hk⟩

private theorem chunk3_linear (q k v : Mat K) (n : ℕ) (hn : 0 < n) (lq : q.length = n) (lk : k.length = n) (lv : v.length = n) (hidden : Mat K) :
    chunk3 (hidden.map (linear1 (q ++ (k ++ v)) none)) = .ok (hidden.map (linear1 q none), hidden.map (linear1 k none), hidden.map (linear1 v none)) := by
  have l1 : ∀ x, (linear1 q none x).length = n := by intro x; simpa [linear1] using lq
  have l2 : ∀ x, (linear1 k none x).length = n := by intro x; simpa [linear1] using lk
  have l3 : ∀ x, (linear1 v none x).length = n := by intro x; simpa [linear1] using lv
  have t : ∀ x, linear1 (q ++ (k ++ v)) none x = linear1 q none x ++ (linear1 k none x ++ linear1 v none x) := by intro x; simp [linear1]
  unfold chunk3
  have hm : ((hidden.map (linear1 (q ++ (k ++ v)) none)).mapM fun x => unpack3 (chunk 3 x)) = .ok (hidden.map fun x => (linear1 q none x, linear1 k none x, linear1 v none x)) := by
    rw [List.mapM_map]
    refine mapM_ok _ _ _ fun x _ => ?_
    simp only [Function.comp_apply, t, chunk_three _ _ _ n hn (l1 x) (l2 x) (l3 x), unpack3]
  rw [hm]
  simp [bind, Except.bind, Function.comp_def]

private theorem chunk2_linear (k v : Mat K) (n : ℕ) (hn : 0 < n) (lk : k.length = n) (lv : v.length = n) (e : Mat K) :
    chunk2 (e.map (linear1 (k ++ v) none)) = .ok (e.map (linear1 k none), e.map (linear1 v none)) := by
  have l2 : ∀ x, (linear1 k none x).length = n := by intro x; simpa [linear1] using lk
  have l3 : ∀ x, (linear1 v none x).length = n := by intro x; simpa [linear1] using lv
  have t : ∀ x, linear1 (k ++ v) none x = linear1 k none x ++ linear1 v none x := by intro x; simp [linear1]
  unfold chunk2
  have hm : ((e.map (linear1 (k ++ v) none)).mapM fun x => unpack2 (chunk 2 x)) = .ok (e.map fun x => (linear1 k none x, linear1 v none x)) := by
    rw [List.mapM_map]
    refine mapM_ok _ _ _ fun x _ => ?_
    simp only [Function.comp_apply, t, chunk_two _ _ n hn (l2 x) (l3 x), unpack2]
  rw [hm]
  simp [bind, Except.bind, Function.comp_def]

/-- C131: where query and key have the same input size, a fused layer loaded with the weights of a layer without biases computes for every sequence what that layer computes,
whatever follows the projections. -/
theorem C131_fused_self_attention {Out : Type} (core : List (Option (Mat K)) → Mat K → Mat K → Mat K → Except Err Out) (c : Config) (hc : c.query = c.cross) (hi : 0 < c.inner)
    (hb : c.bias = false) (d : Dict K) (hd : StateOf c c.originalKeys d) :
    ∃ p q k v, load c d = .ok p ∧ get d .qW = some q ∧ get d .kW = some k ∧ get d .vW = some v ∧ (∀ key, (get p key).isSome ↔ key ∈ c.fusedKeys) ∧
      ∀ hidden : Mat K, (∀ x ∈ hidden, x.length = c.query) → forward core c p hidden none = Spec.attention core q k v (c.restKeys.map (get d)) hidden none := by
  obtain ⟨q, k, v, hq, hk, hv, hkeys⟩ := original_entries c hb d hd
  obtain ⟨lq, rq⟩ := shape_of c _ d hd hq
  obtain ⟨lk, rk⟩ := shape_of c _ d hd hk
  obtain ⟨lv, rv⟩ := shape_of c _ d hd hv
  have hqkv := (hasQkv_iff c).mpr hc
  simp only [Config.shape] at lq rq lk rk lv rv
  have hcat : cat [q, k, v] = .ok (q ++ (k ++ v)) := by
    rw [cat_ok _ c.query]
    · simp
    · intro m hm r hr
      simp only [List.mem_cons, List.not_mem_nil, or_false] at hm
      rcases hm with rfl | rfl | rfl
      · exact rq r hr
      · rw [hc]; exact rk r hr
      · rw [hc]; exact rv r hr
  set d' := del (del (del (FusedAttn.set d .qkvW (q ++ (k ++ v))) .qW) .kW) .vW with hd'
  have hconv : convert c d = .ok d' := by
    unfold convert
    rw [if_pos (by simp [hqkv, hq])]
    simp only [getItem, hq, hk, hv, bind, Except.bind, hcat]
    rfl
  have hg : ∀ key, get d' key = if key = .qkvW then some (q ++ (k ++ v)) else if key ∈ c.restKeys then get d key else none := by
    intro key
    rw [hd', get_del, get_del, get_del, get_set]
    cases hkey : decide (key ∈ c.restKeys) with
    | true =>
      obtain ⟨i, hi', rfl⟩ := (mem_restKeys c key).mp (of_decide_eq_true hkey)
      rw [if_pos (of_decide_eq_true hkey)]
      simp
    | false =>
      have hn : key ∉ c.restKeys := of_decide_eq_false hkey
      rw [if_neg hn]
      have hnone : key ≠ .qW → key ≠ .kW → key ≠ .vW → get d key = none := by
        intro h1 h2 h3
        cases hgd : get d key with
        | none => rfl
        | some m => exact absurd ((hkeys key).mp (by rw [hgd]; rfl)) (by simp [h1, h2, h3, hn])
      by_cases h1 : key = .vW
      · subst h1; simp
      by_cases h2 : key = .kW
      · subst h2; simp
      by_cases h3 : key = .qW
      · subst h3; simp
      rw [if_neg h1, if_neg h2, if_neg h3, hnone h3 h2 h1]
      by_cases h4 : key = .qkvW
      · rw [if_pos h4, if_pos h4.symm]
      · rw [if_neg h4, if_neg (Ne.symm h4)]
  have hstate : StateOf c c.fusedKeys d' := by
    constructor
    · intro key
      rw [hg]
      have : key ∈ c.fusedKeys ↔ key = .qkvW ∨ key ∈ c.restKeys := by simp [Config.fusedKeys, hqkv, hb]
      rw [this]
      by_cases h1 : key = .qkvW
      · rw [if_pos h1]; simp [h1]
      · rw [if_neg h1]
        by_cases h2 : key ∈ c.restKeys
        · rw [if_pos h2]
          simp only [h1, h2, or_true, iff_true]
          exact (hkeys key).mpr (by simp [h2])
        · rw [if_neg h2]; simp [h1, h2]
    · intro e he
      rw [hd', mem_del, mem_del, mem_del] at he
      obtain ⟨⟨⟨he, -⟩, -⟩, -⟩ := he
      rcases List.mem_cons.mp he with rfl | he
      · refine (hasShape_iff _ _ _).mpr ⟨?_, ?_⟩
        · rw [List.length_append, List.length_append, lq, lk, lv]; omega
        · intro r hr
          rcases List.mem_append.mp hr with hr | hr
          · exact rq r hr
          · rcases List.mem_append.mp hr with hr | hr
            · rw [hc]; exact rk r hr
            · rw [hc]; exact rv r hr
      · exact hd.shape e (mem_del.mp he).1
  obtain ⟨hload, hget⟩ := loadStrict_ok c c.fusedKeys d' hstate
  refine ⟨c.fusedKeys.map fun k => (k, (get d' k).getD []), q, k, v, ?_, hq, hk, hv, ?_, ?_⟩
  · show load c d = .ok _
    unfold load
    rw [hconv]
    exact hload
  · intro key
    rw [hget]
    exact hstate.keys key
  · intro hidden hh
    have hp : get (c.fusedKeys.map fun k => (k, (get d' k).getD [])) .qkvW = some (q ++ (k ++ v)) := by rw [hget, hg]; rfl
    have hpb : get (c.fusedKeys.map fun k => (k, (get d' k).getD [])) .qkvB = none := by
      rw [hget, hg, if_neg (by simp), if_neg (by simp [mem_restKeys])]
    have hlin : linear c.query (c.fusedKeys.map fun k => (k, (get d' k).getD [])) .qkvW .qkvB hidden = .ok (hidden.map (linear1 (q ++ (k ++ v)) none)) := by
      unfold linear
      rw [hp, hpb]
      simp only
      rw [if_pos (by simpa using hh)]
    have hch := chunk3_linear q k v c.inner hi lq lk lv hidden
    have hrest : c.restKeys.map (get (c.fusedKeys.map fun k => (k, (get d' k).getD []))) = c.restKeys.map (get d) := by
      refine List.map_congr_left fun key hkey => ?_
      obtain ⟨i, -, hi'⟩ := (mem_restKeys c key).mp hkey
      rw [hget, hg, if_neg (by rw [hi']; simp), if_pos hkey]
    unfold forward project Spec.attention
    simp only [hlin, bind, Except.bind, hch, hrest]
    rfl

/-- C131: where they differ, key and value are fused, and a layer loaded with the weights of a layer without biases computes for every sequence and every sequence of the encoder
what that layer computes. -/
theorem C131_fused_cross_attention {Out : Type} (core : List (Option (Mat K)) → Mat K → Mat K → Mat K → Except Err Out) (c : Config) (hc : c.query ≠ c.cross) (hi : 0 < c.inner)
    (hb : c.bias = false) (d : Dict K) (hd : StateOf c c.originalKeys d) :
    ∃ p q k v, load c d = .ok p ∧ get d .qW = some q ∧ get d .kW = some k ∧ get d .vW = some v ∧ (∀ key, (get p key).isSome ↔ key ∈ c.fusedKeys) ∧
      ∀ hidden encoder : Mat K, (∀ x ∈ hidden, x.length = c.query) → (∀ x ∈ encoder, x.length = c.cross) →
        forward core c p hidden (some encoder) = Spec.attention core q k v (c.restKeys.map (get d)) hidden (some encoder) := by
  obtain ⟨q, k, v, hq, hk, hv, hkeys⟩ := original_entries c hb d hd
  obtain ⟨lk, rk⟩ := shape_of c _ d hd hk
  obtain ⟨lv, rv⟩ := shape_of c _ d hd hv
  have hqkv : c.hasQkv = false := by
    cases h : c.hasQkv with
    | false => rfl
    | true => exact absurd ((hasQkv_iff c).mp h) hc
  simp only [Config.shape] at lk rk lv rv
  have hcat : cat [k, v] = .ok (k ++ v) := by
    rw [cat_ok _ c.cross]
    · simp
    · intro m hm r hr
      simp only [List.mem_cons, List.not_mem_nil, or_false] at hm
      rcases hm with rfl | rfl
      · exact rk r hr
      · exact rv r hr
  set d' := del (del (FusedAttn.set d .kvW (k ++ v)) .kW) .vW with hd'
  have hconv : convert c d = .ok d' := by
    unfold convert
    rw [if_neg (by simp [hqkv]), if_pos (by simp [hqkv, hk])]
    simp only [getItem, hk, hv, bind, Except.bind, hcat]
    rfl
  have hg : ∀ key, get d' key = if key = .kvW then some (k ++ v) else if key = .qW ∨ key ∈ c.restKeys then get d key else none := by
    intro key
    rw [hd', get_del, get_del, get_set]
    by_cases hkey : key = .qW ∨ key ∈ c.restKeys
    · rw [if_pos hkey]
      rcases hkey with rfl | hkey
      · simp
      · obtain ⟨i, hi', rfl⟩ := (mem_restKeys c key).mp hkey
        simp
    · rw [if_neg hkey]
      push Not at hkey
      have hnone : key ≠ .kW → key ≠ .vW → get d key = none := by
        intro h2 h3
        cases hgd : get d key with
        | none => rfl
        | some m => exact absurd ((hkeys key).mp (by rw [hgd]; rfl)) (by simp [hkey.1, h2, h3, hkey.2])
      by_cases h1 : key = .vW
      · subst h1; simp
      by_cases h2 : key = .kW
      · subst h2; simp
      rw [if_neg h1, if_neg h2, hnone h2 h1]
      by_cases h4 : key = .kvW
      · rw [if_pos h4, if_pos h4.symm]
      · rw [if_neg h4, if_neg (Ne.symm h4)]
  have hstate : StateOf c c.fusedKeys d' := by
    constructor
    · intro key
      rw [hg]
      have : key ∈ c.fusedKeys ↔ key = .kvW ∨ key = .qW ∨ key ∈ c.restKeys := by
        simp only [Config.fusedKeys, hqkv, hb]
        simp
        tauto
      rw [this]
      by_cases h1 : key = .kvW
      · rw [if_pos h1]; simp [h1]
      · rw [if_neg h1]
        by_cases h2 : key = .qW ∨ key ∈ c.restKeys
        · rw [if_pos h2]
          simp only [h1, h2, or_true, iff_true]
          exact (hkeys key).mpr (by tauto)
        · rw [if_neg h2]; simp [h1, h2]
    · intro e he
      rw [hd', mem_del, mem_del] at he
      obtain ⟨⟨he, -⟩, -⟩ := he
      rcases List.mem_cons.mp he with rfl | he
      · refine (hasShape_iff _ _ _).mpr ⟨?_, ?_⟩
        · rw [List.length_append, lk, lv]; omega
        · intro r hr
          rcases List.mem_append.mp hr with hr | hr
          · exact rk r hr
          · exact rv r hr
      · exact hd.shape e (mem_del.mp he).1
  obtain ⟨hload, hget⟩ := loadStrict_ok c c.fusedKeys d' hstate
  refine ⟨c.fusedKeys.map fun k => (k, (get d' k).getD []), q, k, v, ?_, hq, hk, hv, ?_, ?_⟩
  · show load c d = .ok _
    unfold load
    rw [hconv]
    exact hload
  · intro key
    rw [hget]
    exact hstate.keys key
  · intro hidden e hh he
    set p := c.fusedKeys.map fun k => (k, (get d' k).getD []) with hpdef
    have hp : get p .kvW = some (k ++ v) := by rw [hget, hg]; rfl
    have hpb : get p .kvB = none := by rw [hget, hg, if_neg (by simp), if_neg (by simp [mem_restKeys])]
    have hpq : get p .qW = some q := by rw [hget, hg, if_neg (by simp), if_pos (Or.inl rfl), hq]
    have hpqb : get p .qB = none := by rw [hget, hg, if_neg (by simp), if_neg (by simp [mem_restKeys])]
    have hlin : linear c.cross p .kvW .kvB e = .ok (e.map (linear1 (k ++ v) none)) := by
      unfold linear
      rw [hp, hpb]
      simp only
      rw [if_pos (by simpa using he)]
    have hlinq : linear c.query p .qW .qB hidden = .ok (hidden.map (linear1 q none)) := by
      unfold linear
      rw [hpq, hpqb]
      simp only
      rw [if_pos (by simpa using hh)]
    have hch := chunk2_linear k v c.inner hi lk lv e
    have hrest : c.restKeys.map (get p) = c.restKeys.map (get d) := by
      refine List.map_congr_left fun key hkey => ?_
      obtain ⟨i, -, hi'⟩ := (mem_restKeys c key).mp hkey
      rw [hget, hg, if_neg (by rw [hi']; simp), if_pos (Or.inr hkey)]
    unfold forward project Spec.attention
    simp only [hqkv, Bool.false_eq_true, if_false, hlin, hlinq, bind, Except.bind, hch, hrest]
    rfl

/-- C131: a state dict that was saved from a fused layer is loaded as it is, with or without biases. -/
theorem C131_load_own_state (c : Config) (d : Dict K) (hd : StateOf c c.fusedKeys d) :
    ∃ p, load c d = .ok p ∧ ∀ k, get p k = get d k := by
  obtain ⟨h1, h2⟩ := loadStrict_ok c c.fusedKeys d hd
  refine ⟨c.fusedKeys.map fun k => (k, (get d k).getD []), ?_, h2⟩
  have hconv : convert c d = .ok d := by
    unfold convert
    cases h : c.hasQkv with
    | true =>
      have hq : (get d .qW).isSome = false := by
        rw [Bool.eq_false_iff, Ne, hd.keys]
        simp [Config.fusedKeys, h, mem_restKeys]
      simp [hq]
    | false =>
      have hk : (get d .kW).isSome = false := by
        rw [Bool.eq_false_iff, Ne, hd.keys]
        simp [Config.fusedKeys, h, mem_restKeys]
      simp [hk]
  unfold load
  rw [hconv]
  exact h1

private theorem loadStrict_unexpected (c : Config) (keys : List Key) (d : Dict K) (k : Key) (h : (get d k).isSome) (hk : k ∉ keys) : loadStrict c keys d = .error .runtimeError := by
  obtain ⟨m, hm⟩ := Option.isSome_iff_exists.mp h
  have hmem := mem_of_get hm
  unfold loadStrict
  rw [if_neg]
  simp only [Bool.and_eq_true, List.all_eq_true, decide_eq_true_eq]
  rintro ⟨⟨-, h2⟩, -⟩
  exact hk (h2 _ hmem)

/-- Disagreement: the weights of a layer with biases are never loaded, since biases are not fused. -/
theorem C131_bias_never_loads (c : Config) (hb : c.bias = true) (d : Dict K) (hd : StateOf c c.originalKeys d) : ∀ p, load c d ≠ .ok p := by
  intro p hp
  have hkB : (get d .kB).isSome := (hd.keys .kB).mpr (by simp [Config.originalKeys, hb])
  unfold load at hp
  cases hconv : convert c d with
  | error e => rw [hconv] at hp; cases hp
  | ok d' =>
    rw [hconv] at hp
    have hk' : (get d' .kB).isSome := by
      unfold convert at hconv
      by_cases h1 : (c.hasQkv && (get d .qW).isSome) = true
      · rw [if_pos h1] at hconv
        simp only [bind, Except.bind] at hconv
        split at hconv
        · cases hconv
        split at hconv
        · cases hconv
        split at hconv
        · cases hconv
        split at hconv
        · cases hconv
        cases hconv
        simpa [get_del, get_set] using hkB
      · rw [if_neg h1] at hconv
        by_cases h2 : (!c.hasQkv && (get d .kW).isSome) = true
        · rw [if_pos h2] at hconv
          simp only [bind, Except.bind] at hconv
          split at hconv
          · cases hconv
          split at hconv
          · cases hconv
          split at hconv
          · cases hconv
          cases hconv
          simpa [get_del, get_set] using hkB
        · rw [if_neg h2] at hconv
          cases hconv
          exact hkB
    have : Key.kB ∉ c.fusedKeys := by
      cases h : c.hasQkv <;> simp [Config.fusedKeys, h, hb, mem_restKeys]
    have := loadStrict_unexpected c c.fusedKeys d' .kB hk' this
    simp only [bind, Except.bind] at hp
    rw [this] at hp
    cases hp

/-- Disagreement: a layer whose query and encoder have the same size refuses states of an encoder, although the layer that it replaces takes them. -/
theorem C131_equal_sizes_refuse_encoder {Out : Type} (core : List (Option (Mat K)) → Mat K → Mat K → Mat K → Except Err Out) (c : Config) (hc : c.query = c.cross) (p : Dict K)
    (hidden encoder : Mat K) : forward core c p hidden (some encoder) = .error .assertionError := by
  unfold forward project
  simp [(hasQkv_iff c).mpr hc, bind, Except.bind]

/-- C131: a state dict that has some of the weights to be fused but lacks another is refused. -/
theorem C131_incomplete_refused (c : Config) (d : Dict K) (h : (c.query = c.cross ∧ (get d .qW).isSome ∧ (get d .kW = none ∨ get d .vW = none)) ∨
    (c.query ≠ c.cross ∧ (get d .kW).isSome ∧ get d .vW = none)) : load c d = .error .keyError := by
  unfold load
  suffices hc : convert c d = .error .keyError by rw [hc]; rfl
  unfold convert
  rcases h with ⟨hq, h1, h2⟩ | ⟨hq, h1, h2⟩
  · rw [if_pos (by simp [(hasQkv_iff c).mpr hq, h1])]
    obtain ⟨q, hq'⟩ := Option.isSome_iff_exists.mp h1
    rcases h2 with h2 | h2
    · simp [getItem, hq', h2, bind, Except.bind]
    · cases hk : get d .kW <;> simp [getItem, hq', h2, hk, bind, Except.bind]
  · have hqkv : c.hasQkv = false := by
      cases h : c.hasQkv with
      | false => rfl
      | true => exact absurd ((hasQkv_iff c).mp h) hq
    obtain ⟨k, hk⟩ := Option.isSome_iff_exists.mp h1
    simp [hqkv, getItem, hk, h2, bind, Except.bind]

/-- A layer with different sizes has no fused query: without states of an encoder it raises, as the layer that it replaces does for want of the right size. -/
theorem C131_different_sizes_need_encoder {Out : Type} (core : List (Option (Mat K)) → Mat K → Mat K → Mat K → Except Err Out) (c : Config) (hc : c.query ≠ c.cross) (p : Dict K)
    (hp : ∀ k, (get p k).isSome ↔ k ∈ c.fusedKeys) (hidden : Mat K) : forward core c p hidden none = .error .attributeError := by
  have hqkv : c.hasQkv = false := by
    cases h : c.hasQkv with
    | false => rfl
    | true => exact absurd ((hasQkv_iff c).mp h) hc
  have : get p .qkvW = none := by
    cases hg : get p .qkvW with
    | none => rfl
    | some m =>
      have := (hp .qkvW).mp (by rw [hg]; rfl)
      simp only [Config.fusedKeys, hqkv, mem_restKeys, List.mem_append] at this
      cases hb : c.bias <;> simp [hb] at this <;> simp [mem_restKeys] at this
  unfold forward project linear
  simp [this, bind, Except.bind]

/-- Disagreement: loading takes the weights out of the caller's dict, so the layer that they came from can no longer load it. -/
theorem C131_caller_dict_is_changed (c : Config) (d d' : Dict K) (hd : StateOf c c.originalKeys d) (h : convert c d = .ok d') :
    get d' .kW = none ∧ loadStrict c c.originalKeys d' = .error .runtimeError := by
  have hk : get d' .kW = none := by
    have hq : (get d .qW).isSome := (hd.keys .qW).mpr (by simp [Config.originalKeys])
    have hkk : (get d .kW).isSome := (hd.keys .kW).mpr (by simp [Config.originalKeys])
    unfold convert at h
    cases hh : c.hasQkv with
    | true =>
      rw [if_pos (by simp [hh, hq])] at h
      simp only [bind, Except.bind] at h
      split at h
      · cases h
      split at h
      · cases h
      split at h
      · cases h
      split at h
      · cases h
      cases h
      simp [get_del]
    | false =>
      rw [if_neg (by simp [hh]), if_pos (by simp [hh, hkk])] at h
      simp only [bind, Except.bind] at h
      split at h
      · cases h
      split at h
      · cases h
      split at h
      · cases h
      cases h
      simp [get_del]
  refine ⟨hk, ?_⟩
  unfold loadStrict
  rw [if_neg]
  simp only [Bool.and_eq_true, List.all_eq_true, decide_eq_true_eq]
  rintro ⟨⟨h1, -⟩, -⟩
  have := h1 .kW (by simp [Config.originalKeys])
  rw [hk] at this
  cases this

/-- C131: the head size is found again from the scale of the layer that is replaced. -/
theorem C131_head_size (n : ℕ) (hn : 0 < n) : dimHead ((1 : ℝ) / Real.sqrt n) = n := by
  unfold dimHead
  have h0 : (0 : ℝ) < n := by exact_mod_cast hn
  rw [div_pow, one_pow, Real.sq_sqrt h0.le, one_div_one_div]
  exact Int.ceil_natCast n

/-! ## Examples -/

/-- One head of size 2 on tokens with two features. -/
private def exampleSelf : Config := ⟨2, 2, 2, false, [(2, 2)]⟩

private def exampleSelfState : Dict ℚ := [(.qW, [[1, 0], [0, 1]]), (.kW, [[0, 2], [3, 0]]), (.vW, [[1, 1], [1, -1]]), (.rest 0, [[1, 0], [0, 1]])]

private theorem exampleSelf_state : StateOf exampleSelf exampleSelf.originalKeys exampleSelfState := by
  constructor
  · intro k
    have : (get exampleSelfState k).isSome ↔ k ∈ exampleSelfState.map Prod.fst := by
      simp [FusedAttn.get, List.find?_isSome]
    rw [this]
    rfl
  · decide +kernel

example : (load exampleSelf exampleSelfState).toOption.map (fun p => (forward (fun _ q k v => Except.ok (q, k, v)) exampleSelf p [[1, 2]] none).toOption) =
    some (some ([[1, 2]], [[4, 3]], [[3, -1]])) := by decide +kernel

example : ∃ p q k v, load exampleSelf exampleSelfState = .ok p ∧ get exampleSelfState .qW = some q ∧ get exampleSelfState .kW = some k ∧ get exampleSelfState .vW = some v ∧
    (∀ key, (get p key).isSome ↔ key ∈ exampleSelf.fusedKeys) ∧ ∀ hidden : Mat ℚ, (∀ x ∈ hidden, x.length = exampleSelf.query) →
      forward (fun _ q k v => Except.ok (q, k, v)) exampleSelf p hidden none =
        Spec.attention (fun _ q k v => Except.ok (q, k, v)) q k v (exampleSelf.restKeys.map (get exampleSelfState)) hidden none :=
  C131_fused_self_attention _ exampleSelf rfl (by decide) rfl exampleSelfState exampleSelf_state

/-- An encoder with tokens of one feature. -/
private def exampleCross : Config := ⟨2, 1, 1, false, []⟩

private def exampleCrossState : Dict ℚ := [(.vW, [[5]]), (.kW, [[3]]), (.qW, [[1, 2]])]

private theorem exampleCross_state : StateOf exampleCross exampleCross.originalKeys exampleCrossState := by
  constructor
  · intro k
    have : (get exampleCrossState k).isSome ↔ k ∈ exampleCrossState.map Prod.fst := by
      simp [FusedAttn.get, List.find?_isSome]
    rw [this]
    simp [exampleCrossState, exampleCross, Config.originalKeys, Config.restKeys]
    tauto
  · decide +kernel

example : (load exampleCross exampleCrossState).toOption.map
    (fun p => (forward (fun _ q k v => Except.ok (q, k, v)) exampleCross p [[1, 2]] (some [[7], [8]])).toOption) =
    some (some ([[5]], [[21], [24]], [[35], [40]])) := by decide +kernel

example := C131_fused_cross_attention (fun _ q k v => Except.ok (q, k, v)) exampleCross (by decide) (by decide) rfl exampleCrossState exampleCross_state

end Brevitas.Props
