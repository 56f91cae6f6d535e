import Verif.Model.RnnLoad
import Mathlib.Data.List.Basic
import Mathlib.Data.List.Nodup
import Mathlib.Data.Fin.VecNotation
import Mathlib.Tactic.IntervalCases

set_option linter.unusedSectionVars false

/-!
# C69, C70: sharing weights between directions, loading float state dicts
-/

namespace Brevitas.Props

open Brevitas.RnnLoad

/-! ## C69: weight sharing -/

section Share
variable {W : Type*}

/-- The two directions of an RNN layer use the same input weight when sharing is on, and each its own otherwise. -/
theorem C69_rnn_shared (fresh fresh' : W) :
    (rnnDirections true fresh fresh').2 = (rnnDirections true fresh fresh').1 ∧
      rnnDirections false fresh fresh' = (fresh, fresh') := ⟨rfl, rfl⟩

example : rnnDirections true "fwd" "bwd" = ("fwd", "fwd") := by decide

/-- An LSTM layer shares the input weights of the cell gate and of the output gate between directions, and nothing when
sharing is off.  The full statement says the same of the input and forget gates; it is false
(`C69_lstm_gates_crossed`, `C69_coupled_not_shared`). -/
theorem C69_lstm_shared_partial (cifg : Bool) (fresh fresh' : Fin 4 → W) :
    (lstmDirections true cifg fresh fresh').2.cell = (lstmDirections true cifg fresh fresh').1.cell ∧
      (lstmDirections true cifg fresh fresh').2.output = (lstmDirections true cifg fresh fresh').1.output ∧
      (lstmDirections false cifg fresh fresh').1 =
        ⟨fresh 0, if cifg then none else some (fresh 1), fresh 2, fresh 3⟩ ∧
      (lstmDirections false cifg fresh fresh').2 =
        ⟨fresh' 0, if cifg then none else some (fresh' 1), fresh' 2, fresh' 3⟩ := by
  cases cifg <;> exact ⟨rfl, rfl, rfl, rfl⟩

/-- With separate gates, the right-to-left direction of an LSTM layer gets the forget gate's weight as the weight of its
input gate and the input gate's weight as the weight of its forget gate: neither gate is shared with its counterpart. -/
theorem C69_lstm_gates_crossed (fresh fresh' : Fin 4 → W) (h : fresh 0 ≠ fresh 1) :
    let d := lstmDirections true false fresh fresh'
    some d.2.input = d.1.forget ∧ d.2.forget = some d.1.input ∧ d.2.input ≠ d.1.input ∧ d.2.forget ≠ d.1.forget :=
  ⟨rfl, rfl, fun e => h e.symm, fun e => h (Option.some.inj e)⟩

example : (![ "i", "f", "c", "o" ] : Fin 4 → String) 0 ≠ (![ "i", "f", "c", "o" ] : Fin 4 → String) 1 := by decide

example : lstmDirections true false ![ "i", "f", "c", "o" ] ![ "i'", "f'", "c'", "o'" ] =
    (⟨"i", some "f", "c", "o"⟩, ⟨"f", some "i", "c", "o"⟩) := by decide

/-- With coupled gates, the input gate of the right-to-left direction is not shared. -/
theorem C69_coupled_not_shared (fresh fresh' : Fin 4 → W) (h : fresh 0 ≠ fresh' 0) :
    let d := lstmDirections true true fresh fresh'
    d.2.input = fresh' 0 ∧ d.2.input ≠ d.1.input :=
  ⟨rfl, fun e => h e.symm⟩

example : lstmDirections true true ![ "i", "f", "c", "o" ] ![ "i'", "f'", "c'", "o'" ] =
    (⟨"i", none, "c", "o"⟩, ⟨"i'", none, "c", "o"⟩) := by decide

end Share

/-! ## C70: the keys of a float state dict -/

section Load
variable {V : Type*}

/-- A parameter of a float RNN or LSTM: layer, direction (`reverse`) and name. -/
structure FloatKey where
  layer : ℕ
  reverse : Bool
  base : List Char
  deriving DecidableEq

/-- The names PyTorch gives to the parameters of a layer, before the suffix. -/
def bases : List (List Char) :=
  ["weight_ih".toList, "weight_hh".toList, "bias_ih".toList, "bias_hh".toList]

/-- The key under which PyTorch saves a parameter of an RNN called `pre`: `weight_ih_l0`, `weight_ih_l0_reverse`, … -/
def FloatKey.torch (pre : List Char) (k : FloatKey) : List Char :=
  pre ++ (k.base ++ ("_l".toList ++ (toString k.layer).toList ++ if k.reverse then "_reverse".toList else []))

/-- The key the layer of the quantised stack looks for: `layers.0.0.weight_ih`, and `.1.` for right to left. -/
def FloatKey.brevitas (pre : List Char) (k : FloatKey) : List Char :=
  pre ++ ("layers.".toList ++ (toString k.layer).toList ++ (if k.reverse then ".1.".toList else ".0.".toList) ++ k.base)

/-- A module path: empty, or ended by a dot. -/
def IsPath (pre : List Char) : Prop := pre = [] ∨ pre.getLast? = some '.'

theorem contains_iff (pat s : List Char) : contains pat s = true ↔ pat <:+: s := by
  induction s with
  | nil => simp [contains]
  | cons c cs ih =>
    rw [contains, Bool.or_eq_true, List.isPrefixOf_iff_prefix, ih, List.infix_cons_iff]

/-- A pattern without dots does not straddle the end of a path. -/
theorem contains_path {pat : List Char} (hd : '.' ∉ pat) (hne : pat ≠ []) {pre : List Char} (hp : IsPath pre)
    (s : List Char) : contains pat (pre ++ s) = (contains pat pre || contains pat s) := by
  rcases hp with rfl | hp
  · cases pat with
    | nil => exact absurd rfl hne
    | cons c p => rfl
  · induction pre with
    | nil => simp at hp
    | cons c p ih =>
      have key : pat.isPrefixOf (c :: (p ++ s)) = pat.isPrefixOf (c :: p) := by
        rw [Bool.eq_iff_iff, List.isPrefixOf_iff_prefix, List.isPrefixOf_iff_prefix]
        constructor
        · intro h
          by_cases hl : pat.length ≤ (c :: p).length
          · exact List.prefix_of_prefix_length_le h (List.prefix_append (c :: p) s) hl
          · exact absurd ((List.prefix_of_prefix_length_le (List.prefix_append (c :: p) s) h (by omega)).subset
              (List.mem_of_getLast? hp)) hd
        · exact fun h => h.trans (List.prefix_append (c :: p) s)
      rw [List.cons_append, contains, contains, key]
      cases p with
      | nil =>
        have hcs : contains pat [] = false := by
          cases pat with
          | nil => exact absurd rfl hne
          | cons c p => rfl
        rw [hcs, List.nil_append, Bool.or_false]
      | cons c' p' =>
        rw [ih (by simpa [List.getLast?_cons_cons] using hp), Bool.or_assoc]

theorem digits_lt_ten {i : ℕ} (hi : i < 10) : digits i = [Nat.digitChar i] := by
  interval_cases i <;> rfl

/-- `del d[k]` after `d[k'] = v` with a new key. -/
theorem setItem_new {dict : List (List Char × V)} {key : List Char} (h : key ∉ dict.map Prod.fst) (v : V) :
    setItem dict key v = dict ++ [(key, v)] := by
  unfold setItem
  rw [if_neg]
  rw [List.any_eq_true]
  rintro ⟨kv, hm, he⟩
  exact h (List.mem_map.mpr ⟨kv, hm, by simpa using he⟩)

theorem delItem_head {name : List Char} {v : V} {dict : List (List Char × V)} (h : name ∉ dict.map Prod.fst) :
    delItem ((name, v) :: dict) name = some dict := by
  unfold delItem
  rw [if_pos (by simp)]
  congr 1
  rw [List.filter_cons_of_neg (by simp), List.filter_eq_self]
  intro kv hm
  have : kv.1 ≠ name := fun e => h (List.mem_map.mpr ⟨kv, hm, e⟩)
  simpa using this

/-- The parameters of a network of `n ≤ 10` layers. -/
def Valid (n : ℕ) (k : FloatKey) : Prop := k.layer < n ∧ k.base ∈ bases

/-- No layer suffix occurs in a path. -/
def Clean (n : ℕ) (pre : List Char) : Prop := ∀ i < n, ¬ ("_l".toList ++ (toString i).toList) <:+: pre

theorem layerName_nodot {i : ℕ} (hi : i < 10) : '.' ∉ layerName i := by
  interval_cases i <;> decide

theorem reverseName_nodot {i : ℕ} (hi : i < 10) : '.' ∉ reverseName i := by
  interval_cases i <;> decide

theorem clean_layer {n : ℕ} {pre : List Char} (h : Clean n pre) {i : ℕ} (hi : i < n) :
    contains (layerName i) pre = false := by
  rw [Bool.eq_false_iff, Ne, contains_iff]
  exact h i hi

theorem contains_reverse_of {i : ℕ} {s : List Char} (h : contains (layerName i) s = false) :
    contains (reverseName i) s = false := by
  rw [Bool.eq_false_iff, Ne, contains_iff] at h ⊢
  exact fun hr => h ((List.prefix_append _ _).isInfix.trans hr)

/-- The suffix of a float key contains the name of its own layer only. -/
theorem tail_layer {base : List Char} (hb : base ∈ bases) {l : ℕ} (hl : l < 10) {i : ℕ} (hi : i < 10) (rev : Bool) :
    contains (layerName i) (base ++ ("_l".toList ++ (toString l).toList ++ if rev then "_reverse".toList else [])) =
      decide (i = l) := by
  simp only [bases, List.mem_cons, List.not_mem_nil, or_false] at hb
  rcases hb with rfl | rfl | rfl | rfl <;> cases rev <;> interval_cases l <;> interval_cases i <;> rfl

theorem tail_reverse {base : List Char} (hb : base ∈ bases) {l : ℕ} (hl : l < 10) (rev : Bool) :
    contains (reverseName l) (base ++ ("_l".toList ++ (toString l).toList ++ if rev then "_reverse".toList else [])) =
      rev := by
  simp only [bases, List.mem_cons, List.not_mem_nil, or_false] at hb
  rcases hb with rfl | rfl | rfl | rfl <;> cases rev <;> interval_cases l <;> rfl

theorem torch_inj {n : ℕ} (hn : n ≤ 10) {pre : List Char} {k k' : FloatKey} (h : Valid n k) (h' : Valid n k')
    (e : k.torch pre = k'.torch pre) : k = k' := by
  obtain ⟨l, r, b⟩ := k
  obtain ⟨l', r', b'⟩ := k'
  obtain ⟨hl, hb⟩ := h
  obtain ⟨hl', hb'⟩ := h'
  have e := List.append_cancel_left e
  have hll : l = l' := by
    have h1 := tail_layer hb (show l < 10 by simp at hl; omega) (show l < 10 by simp at hl; omega) r
    have h2 := tail_layer hb' (show l' < 10 by simp at hl'; omega) (show l < 10 by simp at hl; omega) r'
    simp only at e
    rw [e, h2] at h1
    simpa using h1
  subst hll
  have hrr : r = r' := by
    have h1 := tail_reverse hb (show l < 10 by simp at hl; omega) r
    have h2 := tail_reverse hb' (show l < 10 by simp at hl; omega) r'
    simp only at e
    rw [e, h2] at h1
    exact h1.symm
  subst hrr
  have hbb : b = b' := List.append_cancel_right e
  rw [hbb]

theorem brevitas_inj {n : ℕ} (hn : n ≤ 10) {pre : List Char} {k k' : FloatKey} (h : Valid n k) (h' : Valid n k')
    (e : k.brevitas pre = k'.brevitas pre) : k = k' := by
  obtain ⟨l, r, b⟩ := k
  obtain ⟨l', r', b'⟩ := k'
  obtain ⟨hl, hb⟩ := h
  obtain ⟨hl', hb'⟩ := h'
  have e := List.append_cancel_left e
  rw [List.append_assoc, List.append_assoc, List.append_assoc, List.append_assoc] at e
  have e := List.append_cancel_left e
  have d1 := digits_lt_ten (show l < 10 by simp at hl; omega)
  have d2 := digits_lt_ten (show l' < 10 by simp at hl'; omega)
  unfold digits at d1 d2
  simp only at e hl hl'
  rw [d1, d2] at e
  have e' := List.cons.inj e
  have hll : l = l' := by
    have hc := e'.1
    clear e e' d1 d2
    have h1 : l < 10 := by omega
    have h2 : l' < 10 := by omega
    revert hc
    clear hl hl'
    interval_cases l <;> interval_cases l' <;> decide
  subst hll
  have e2 := e'.2
  cases r <;> cases r' <;> simp at e2
  · rw [e2]
  · rw [e2]

theorem torch_ne_layers {k : FloatKey} (hb : k.base ∈ bases) (pre s : List Char) :
    k.torch pre ≠ pre ++ ("layers.".toList ++ s) := by
  intro e
  have e := List.append_cancel_left e
  simp only [bases, List.mem_cons, List.not_mem_nil, or_false] at hb
  rcases hb with h | h | h | h <;> rw [h] at e <;> exact absurd (List.cons.inj e).1 (by decide)

theorem torch_ne_brevitas {k k' : FloatKey} (hb : k.base ∈ bases) (pre : List Char) :
    k.torch pre ≠ k'.brevitas pre := by
  have := torch_ne_layers hb pre
    ((toString k'.layer).toList ++ (if k'.reverse then ".1.".toList else ".0.".toList) ++ k'.base)
  simpa [FloatKey.brevitas, List.append_assoc] using this

theorem cut_eq (pre base suf : List Char) : cut pre suf (pre ++ (base ++ suf)) = base := by
  unfold cut
  have : (pre ++ (base ++ suf)).length - suf.length = (pre ++ base).length := by
    simp only [List.length_append]; omega
  rw [this, ← List.append_assoc, List.take_left, List.drop_left]

theorem loadIndex_valid {n : ℕ} (hn : n ≤ 10) {pre : List Char} (hp : IsPath pre) (hc : Clean n pre) {k : FloatKey}
    (h : Valid n k) {i : ℕ} (hi : i < n) (v : V) (dict : List (List Char × V)) :
    loadIndex pre (k.torch pre) v i dict =
      if i = k.layer then delItem (setItem dict (k.brevitas pre) v) (k.torch pre) else some dict := by
  obtain ⟨l, r, b⟩ := k
  obtain ⟨hl, hb⟩ := h
  simp only at hl hb ⊢
  have hL : contains (layerName i) ((⟨l, r, b⟩ : FloatKey).torch pre) = decide (i = l) := by
    unfold FloatKey.torch
    rw [contains_path (layerName_nodot (by omega)) (by simp [layerName]) hp, clean_layer hc hi, Bool.false_or]
    exact tail_layer hb (show l < 10 by omega) (show i < 10 by omega) r
  unfold loadIndex
  by_cases hil : i = l
  · subst hil
    have hR : contains (reverseName i) ((⟨i, r, b⟩ : FloatKey).torch pre) = r := by
      unfold FloatKey.torch
      rw [contains_path (reverseName_nodot (by omega)) (by simp [reverseName, layerName]) hp,
        contains_reverse_of (clean_layer hc hi), Bool.false_or]
      exact tail_reverse hb (show i < 10 by omega) r
    rw [if_pos rfl]
    cases r
    · rw [hR, if_neg (by simp), hL, if_pos (by simp)]
      have : cut pre (layerName i) ((⟨i, false, b⟩ : FloatKey).torch pre) = b := by
        have e : (⟨i, false, b⟩ : FloatKey).torch pre = pre ++ (b ++ layerName i) := by
          simp [FloatKey.torch, layerName, digits]
        rw [e, cut_eq]
      rw [this]
      congr 2
      simp [layerKey, FloatKey.brevitas, digits]
    · rw [hR, if_pos rfl]
      have : cut pre (reverseName i) ((⟨i, true, b⟩ : FloatKey).torch pre) = b := by
        have e : (⟨i, true, b⟩ : FloatKey).torch pre = pre ++ (b ++ reverseName i) := by
          simp [FloatKey.torch, layerName, reverseName, digits]
        rw [e, cut_eq]
      rw [this]
      congr 2
      simp [layerKey, FloatKey.brevitas, digits]
  · have hL' : contains (layerName i) ((⟨l, r, b⟩ : FloatKey).torch pre) = false := by rw [hL]; simpa using hil
    rw [contains_reverse_of hL', hL', if_neg hil]
    rfl

theorem loadName_valid {n : ℕ} (hn : n ≤ 10) {pre : List Char} (hp : IsPath pre) (hc : Clean n pre) {k : FloatKey}
    (h : Valid n k) (v : V) (is : List ℕ) (his : ∀ i ∈ is, i < n) (hnd : is.Nodup) (dict : List (List Char × V)) :
    loadName pre (k.torch pre) v is dict =
      if k.layer ∈ is then delItem (setItem dict (k.brevitas pre) v) (k.torch pre) else some dict := by
  induction is generalizing dict with
  | nil => simp [loadName]
  | cons i is ih =>
    rw [loadName, loadIndex_valid hn hp hc h (his i (by simp))]
    have hnd' := List.nodup_cons.mp hnd
    by_cases hi : i = k.layer
    · rw [if_pos hi, if_pos (by simp [hi])]
      cases hd : delItem (setItem dict (k.brevitas pre) v) (k.torch pre) with
      | none => rfl
      | some d =>
        rw [Option.bind_some, ih (fun j hj => his j (by simp [hj])) hnd'.2, if_neg (by rw [← hi]; exact hnd'.1)]
    · rw [if_neg hi, Option.bind_some, ih (fun j hj => his j (by simp [hj])) hnd'.2]
      have : (k.layer ∈ i :: is) ↔ k.layer ∈ is := by simp [Ne.symm hi]
      simp only [this]

theorem loadItems_valid {n : ℕ} (hn : n ≤ 10) {pre : List Char} (hp : IsPath pre) (hc : Clean n pre)
    (val : FloatKey → V) (todo done : List FloatKey) (hv : ∀ k ∈ todo ++ done, Valid n k) (hnd : (todo ++ done).Nodup) :
    loadItems pre n (todo.map fun k => (k.torch pre, val k))
      ((todo.map fun k => (k.torch pre, val k)) ++ done.map fun k => (k.brevitas pre, val k)) =
      some ((done ++ todo).map fun k => (k.brevitas pre, val k)) := by
  induction todo generalizing done with
  | nil => simp [loadItems]
  | cons k todo ih =>
    have hk := hv k (by simp)
    rw [List.cons_append, List.nodup_cons] at hnd
    rw [List.map_cons, loadItems, loadName_valid hn hp hc hk (val k) _ (fun i hi => by simpa using hi) List.nodup_range,
      if_pos (by simpa using hk.1), List.cons_append, setItem_new]
    · rw [List.cons_append, delItem_head]
      · rw [Option.bind_some, List.append_assoc]
        have := ih (done ++ [k]) (fun k' hk' => hv k' (by
            simp only [List.mem_append, List.mem_cons, List.not_mem_nil, or_false, List.cons_append] at hk' ⊢; tauto))
          (by
            rw [← List.append_assoc]
            refine List.Nodup.append hnd.2 (by simp) ?_
            simpa [List.disjoint_singleton] using hnd.1)
        rw [List.map_append] at this
        rw [show (done ++ k :: todo) = done ++ [k] ++ todo by simp]
        exact this
      · simp only [List.map_append, List.map_map, List.mem_append, List.mem_map, Function.comp, List.map_cons,
          List.map_nil, List.mem_cons, List.not_mem_nil, or_false, not_or, not_exists, not_and]
        refine ⟨⟨fun k' hk' e => ?_, fun k' _ e => torch_ne_brevitas hk.2 pre e.symm⟩, torch_ne_brevitas hk.2 pre⟩
        have := torch_inj hn (hv k' (by simp [hk'])) hk e
        exact hnd.1 (by simp [← this, hk'])
    · simp only [List.map_append, List.map_map, List.mem_append, List.mem_map, Function.comp, List.map_cons,
        List.mem_cons, not_or, not_exists, not_and]
      refine ⟨fun e => torch_ne_brevitas hk.2 pre e.symm, fun k' hk' e => ?_, fun k' hk' e => ?_⟩
      · exact torch_ne_brevitas (hv k' (by simp [hk'])).2 pre e
      · have := brevitas_inj hn (hv k' (by simp [hk'])) hk e
        exact hnd.1 (by simp [← this, hk'])

/-- Loading a float state dict into a quantised stack of at most ten layers: every parameter of every layer and direction,
in whatever order and whichever of them are present, ends up under the key that layer and direction looks for, and
nothing else is left.  The full statement is about any number of layers and any module name; it is false for eleven layers
or more (`C70_eleven_layers_raise`) and for names that contain a layer suffix (`C70_module_name_breaks_reload`). -/
theorem C70_float_keys_partial {n : ℕ} (hn : n ≤ 10) (pre : List Char) (hp : IsPath pre) (hc : Clean n pre)
    (keys : List FloatKey) (hv : ∀ k ∈ keys, k.layer < n ∧ k.base ∈ bases) (hnd : keys.Nodup) (val : FloatKey → V) :
    stackLoad pre n (keys.map fun k => (k.torch pre, val k)) = some (keys.map fun k => (k.brevitas pre, val k)) := by
  have := loadItems_valid hn hp hc val keys [] (fun k hk => hv k (by simpa using hk)) (by simpa using hnd)
  simpa [stackLoad] using this

example : stackLoad "enc.".toList 2 [("enc.weight_ih_l0".toList, 1), ("enc.weight_ih_l1_reverse".toList, 2)] =
    some [("enc.layers.0.0.weight_ih".toList, 1), ("enc.layers.1.1.weight_ih".toList, 2)] := by decide +kernel

example : IsPath "enc.".toList ∧ Clean 2 "enc.".toList := by
  refine ⟨Or.inr (by decide), fun i hi => ?_⟩
  rw [show ("_l".toList ++ (toString i).toList) = layerName i from rfl, ← contains_iff]
  interval_cases i <;> decide +kernel

example : (⟨1, true, "weight_ih".toList⟩ : FloatKey).torch "enc.".toList = "enc.weight_ih_l1_reverse".toList ∧
    (⟨1, true, "weight_ih".toList⟩ : FloatKey).brevitas "enc.".toList = "enc.layers.1.1.weight_ih".toList := by
  decide +kernel

theorem loadName_same {pre name : List Char} (v : V) (is : List ℕ)
    (h : ∀ i ∈ is, contains (layerName i) name = false) (dict : List (List Char × V)) :
    loadName pre name v is dict = some dict := by
  induction is with
  | nil => rfl
  | cons i is ih =>
    have hi := h i (by simp)
    rw [loadName, loadIndex, contains_reverse_of hi, hi]
    simpa using ih fun j hj => h j (by simp [hj])

/-- Reloading the state dict of the quantised stack itself: a dict none of whose keys contains a layer suffix is left as
it is. -/
theorem C70_own_keys_kept (pre : List Char) (n : ℕ) (dict : List (List Char × V))
    (h : ∀ kv ∈ dict, Clean n kv.1) : stackLoad pre n dict = some dict := by
  unfold stackLoad
  suffices ∀ items : List (List Char × V), (∀ kv ∈ items, Clean n kv.1) → loadItems pre n items dict = some dict from
    this dict h
  intro items hi
  induction items with
  | nil => rfl
  | cons kv items ih =>
    obtain ⟨name, v⟩ := kv
    rw [loadItems, loadName_same v _ (fun i hi' => clean_layer (hi (name, v) (by simp)) (List.mem_range.mp hi')),
      Option.bind_some]
    exact ih fun kv hkv => hi kv (by simp [hkv])

example : stackLoad "enc.".toList 2 [("enc.layers.0.0.gate_params.bias".toList, 1)] =
    some [("enc.layers.0.0.gate_params.bias".toList, 1)] := by decide +kernel

/-! ### Eleven layers -/

theorem setItem_keys {dict : List (List Char × V)} {key name : List Char} (hne : key ≠ name) (v : V)
    (h : name ∉ dict.map Prod.fst) : name ∉ (setItem dict key v).map Prod.fst := by
  unfold setItem
  by_cases ha : dict.any (·.1 == key)
  · rw [if_pos ha, List.map_map]
    intro hm
    obtain ⟨kv, hkv, he⟩ := List.mem_map.mp hm
    simp only [Function.comp] at he
    by_cases hk : (kv.1 == key) = true
    · rw [if_pos hk] at he; exact hne he
    · rw [if_neg hk] at he; exact h (List.mem_map.mpr ⟨kv, hkv, he⟩)
  · rw [if_neg ha, List.map_append, List.mem_append]
    rintro (hm | hm)
    · exact h hm
    · simp only [List.map_cons, List.map_nil, List.mem_singleton] at hm
      exact hne hm.symm

theorem delItem_absent {dict : List (List Char × V)} {name : List Char} (h : name ∉ dict.map Prod.fst) :
    delItem dict name = none := by
  unfold delItem
  rw [if_neg]
  rw [List.any_eq_true]
  rintro ⟨kv, hm, he⟩
  exact h (List.mem_map.mpr ⟨kv, hm, by simpa using he⟩)

theorem delItem_gone {dict d : List (List Char × V)} {name : List Char} (h : delItem dict name = some d) :
    name ∉ d.map Prod.fst := by
  unfold delItem at h
  by_cases ha : dict.any (·.1 == name)
  · rw [if_pos ha] at h
    obtain rfl := Option.some.inj h
    intro hm
    obtain ⟨kv, hkv, he⟩ := List.mem_map.mp hm
    have := (List.mem_filter.mp hkv).2
    simp [he] at this
  · rw [if_neg ha] at h; exact absurd h (by simp)

/-- What a step does when the name matches: it deletes the name (or raises). -/
theorem loadIndex_match {pre name : List Char} (hne : ∀ i d p, layerKey pre i d p ≠ name) {v : V} {i : ℕ}
    (hi : contains (layerName i) name = true) (dict : List (List Char × V)) :
    (name ∉ dict.map Prod.fst → loadIndex pre name v i dict = none) ∧
      ∀ d, loadIndex pre name v i dict = some d → name ∉ d.map Prod.fst := by
  unfold loadIndex
  by_cases hr : contains (reverseName i) name = true
  · rw [if_pos hr]
    exact ⟨fun h => delItem_absent (setItem_keys (hne _ _ _) v h), fun d hd => delItem_gone hd⟩
  · rw [if_neg hr, if_pos hi]
    exact ⟨fun h => delItem_absent (setItem_keys (hne _ _ _) v h), fun d hd => delItem_gone hd⟩

theorem loadName_absent {pre name : List Char} (hne : ∀ i d p, layerKey pre i d p ≠ name) {v : V} (is : List ℕ)
    (dict : List (List Char × V)) (h : name ∉ dict.map Prod.fst) {j : ℕ} (hj : j ∈ is)
    (hm : contains (layerName j) name = true) : loadName pre name v is dict = none := by
  induction is with
  | nil => simp at hj
  | cons i is ih =>
    rw [loadName]
    by_cases hi : contains (layerName i) name = true
    · rw [(loadIndex_match hne hi dict).1 h]; rfl
    · have hi' : contains (layerName i) name = false := by simpa using hi
      have : loadIndex pre name v i dict = some dict := by
        rw [loadIndex, contains_reverse_of hi', hi']; rfl
      rw [this, Option.bind_some]
      refine ih ?_
      rcases List.mem_cons.mp hj with rfl | hj
      · exact absurd hm hi
      · exact hj

theorem loadName_twice {pre name : List Char} (hne : ∀ i d p, layerKey pre i d p ≠ name) {v : V} (is js : List ℕ)
    (dict : List (List Char × V)) {j j' : ℕ} (hj : j ∈ is) (hj' : j' ∈ js)
    (hm : contains (layerName j) name = true) (hm' : contains (layerName j') name = true) :
    loadName pre name v (is ++ js) dict = none := by
  induction is generalizing dict with
  | nil => simp at hj
  | cons i is ih =>
    rw [List.cons_append, loadName]
    by_cases hi : contains (layerName i) name = true
    · cases hl : loadIndex pre name v i dict with
      | none => rfl
      | some d =>
        rw [Option.bind_some]
        exact loadName_absent hne _ d ((loadIndex_match hne hi dict).2 d hl) (List.mem_append_right _ hj') hm'
    · have hi' : contains (layerName i) name = false := by simpa using hi
      have : loadIndex pre name v i dict = some dict := by
        rw [loadIndex, contains_reverse_of hi', hi']; rfl
      rw [this, Option.bind_some]
      refine ih dict ?_
      rcases List.mem_cons.mp hj with rfl | hj
      · exact absurd hm hi
      · exact hj

/-- A float state dict cannot be loaded into a stack of eleven layers or more: whatever else the dict holds, a parameter of
the eleventh layer (`weight_ih_l10`) makes loading raise, because its key also contains the suffix of the second one. -/
theorem C70_eleven_layers_raise (pre : List Char) (n : ℕ) (hn : 11 ≤ n) (reverse : Bool) (base : List Char)
    (hb : base ∈ bases) (v : V) (dict : List (List Char × V))
    (hmem : ((⟨10, reverse, base⟩ : FloatKey).torch pre, v) ∈ dict) : stackLoad pre n dict = none := by
  unfold stackLoad
  have hname : ∀ d, loadName pre ((⟨10, reverse, base⟩ : FloatKey).torch pre) v (List.range n) d = none := by
    intro d
    have hne : ∀ i c p, layerKey pre i c p ≠ (⟨10, reverse, base⟩ : FloatKey).torch pre := by
      intro i c p e
      have := torch_ne_layers (k := ⟨10, reverse, base⟩) hb pre (digits i ++ (['.', c, '.'] ++ p))
      rw [← e] at this
      simp [layerKey] at this
    have hc : ∀ i, i = 1 ∨ i = 10 → contains (layerName i) ((⟨10, reverse, base⟩ : FloatKey).torch pre) = true := by
      intro i hi
      rw [contains_iff]
      have h1 : layerName i <+: ("_l".toList ++ (toString 10).toList ++ if reverse then "_reverse".toList else []) := by
        rcases hi with rfl | rfl
        · exact ⟨'0' :: (if reverse then "_reverse".toList else []), by cases reverse <;> rfl⟩
        · exact ⟨(if reverse then "_reverse".toList else []), by cases reverse <;> rfl⟩
      exact h1.isInfix.trans ⟨pre ++ base, [], by
        rw [FloatKey.torch, List.append_nil, List.append_assoc]⟩
    have hsplit : List.range n = List.range 2 ++ (List.range (n - 2)).map (2 + ·) := by
      have := List.range_add (n := 2) (m := n - 2)
      rw [show 2 + (n - 2) = n by omega] at this
      exact this
    rw [hsplit]
    exact loadName_twice hne _ _ d (j := 1) (j' := 10) (by simp)
      (List.mem_map.mpr ⟨8, by simp; omega, rfl⟩) (hc 1 (Or.inl rfl)) (hc 10 (Or.inr rfl))
  suffices ∀ (items : List (List Char × V)) (d : List (List Char × V)),
      ((⟨10, reverse, base⟩ : FloatKey).torch pre, v) ∈ items → loadItems pre n items d = none from this dict dict hmem
  intro items d hi
  induction items generalizing d with
  | nil => simp at hi
  | cons kv items ih =>
    obtain ⟨name, w⟩ := kv
    rw [loadItems]
    rcases List.mem_cons.mp hi with e | hi
    · obtain ⟨rfl, rfl⟩ := Prod.mk.inj e
      rw [hname]; rfl
    · cases loadName pre name w (List.range n) d with
      | none => rfl
      | some d' => exact ih d' hi

example : stackLoad "enc.".toList 11 [("enc.weight_ih_l10".toList, 1)] = none := by decide +kernel

/-- A stack whose module name contains a layer suffix does not reload its own state dict: for a module called `enc_l0`,
the bias it saved is moved to a key it does not look for. -/
theorem C70_module_name_breaks_reload :
    ∃ (pre : List Char) (key : List Char) (dict : List (List Char × ℕ)), IsPath pre ∧
      (key, 7) ∈ dict ∧ ∃ d, stackLoad pre 1 dict = some d ∧ key ∉ d.map Prod.fst := by
  refine ⟨"enc_l0.".toList, "enc_l0.layers.0.0.gate_params.bias".toList,
    [("enc_l0.layers.0.0.gate_params.bias".toList, 7)], Or.inr (by decide), by simp,
    [("enc_l0.layers.0.0.layers.0.0.gate_params.b".toList, 7)], by decide +kernel, by decide +kernel⟩

end Load

end Brevitas.Props
