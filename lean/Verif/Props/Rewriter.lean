import Verif.Spec.Rewriter

/-!
# C135: the options of a layer that replaces another
-/

namespace Brevitas.Props

open Brevitas.Rewriter

variable {V : Type}

/-! ## Dicts -/

private theorem get_dictSet {A : Type} (k q : String) (v : A) (d : List (String × A)) : item (dictSet k v d) q = if k = q then some v else item d q := by
  induction d with
  | nil => simp [dictSet, item]
  | cons e l ih =>
    by_cases h : e.1 = k
    · simp only [dictSet, h, if_true, item]
      by_cases hq : k = q <;> simp [hq]
    · simp only [dictSet, h, if_false, item, ih]
      by_cases hq : k = q
      · subst hq
        simp [h]
      · simp [hq]

private theorem get_none_of_notMem {A : Type} (d : List (String × A)) (q : String) (h : q ∉ d.map Prod.fst) : item d q = none := by
  induction d with
  | nil => rfl
  | cons e l ih =>
    simp only [List.map_cons, List.mem_cons, not_or] at h
    simp only [item]
    rw [if_neg (fun e => h.1 e.symm), ih h.2]

private theorem get_append {A : Type} (a b : List (String × A)) (q : String) : item (a ++ b) q = (item a q).or (item b q) := by
  induction a with
  | nil => simp [item]
  | cons e l ih =>
    by_cases h : e.1 = q <;> simp [item, h, ih]

private theorem get_update {A : Type} (u : List (String × A)) : ∀ (d : List (String × A)) (q : String), (u.map Prod.fst).Nodup → item (update d u) q = (item u q).or (item d q) := by
  induction u with
  | nil => intro d q _; simp [update, item]
  | cons e l ih =>
    intro d q hn
    rw [List.map_cons, List.nodup_cons] at hn
    show item (update (dictSet e.1 e.2 d) l) q = _
    rw [ih _ q hn.2, get_dictSet]
    by_cases h : e.1 = q
    · have : item l q = none := get_none_of_notMem l q (h ▸ hn.1)
      simp [item, h, this]
    · simp [item, h]

private theorem get_filter {A : Type} (p : String → Bool) (d : List (String × A)) (q : String) : item (d.filter fun e => p e.1) q = if p q = true then item d q else none := by
  induction d with
  | nil => simp [item]
  | cons e l ih =>
    by_cases hp : p e.1 = true
    · rw [List.filter_cons_of_pos (by exact hp)]
      simp only [item, ih]
      by_cases h : e.1 = q
      · subst h; simp [hp]
      · simp [h]
    · rw [List.filter_cons_of_neg (by exact hp), ih]
      by_cases h : e.1 = q
      · subst h; simp [hp]
      · simp [item, h]

private theorem get_mapVar [DecidableEq V] (d : List (String × Arg V)) (q : String) :
    item (mapOriginVars d) q = (item d q).map fun a => if q = "bias" then .pyBool (decide (a ≠ .pyNone)) else a := by
  induction d with
  | nil => rfl
  | cons e l ih =>
    show item (mapVar e :: mapOriginVars l) q = _
    by_cases h : e.1 = q
    · simp [item, mapVar, h]
    · simp only [item, h, if_false]
      rw [← ih, if_neg (show ¬ (mapVar e).1 = q from h)]

private theorem mapM_get (old : Old V) (name : Option String) : ∀ (rw : List (String × Kw V)) (u : List (String × Arg V)),
    (rw.mapM fun e => (evaluate old name e.2).map fun a => (e.1, a)) = some u → u.map Prod.fst = rw.map Prod.fst ∧ ∀ q, item u q = (item rw q).bind (evaluate old name) := by
  intro rw
  induction rw with
  | nil => intro u h; cases h; exact ⟨rfl, fun q => rfl⟩
  | cons e l ih =>
    intro u h
    rw [List.mapM_cons] at h
    cases he : evaluate old name e.2 with
    | none => rw [he] at h; cases h
    | some a =>
      rw [he] at h
      cases hl : (l.mapM fun e => (evaluate old name e.2).map fun a => (e.1, a)) with
      | none => rw [hl] at h; cases h
      | some u' =>
        rw [hl] at h
        cases h
        obtain ⟨h1, h2⟩ := ih u' hl
        refine ⟨by simp [h1], fun q => ?_⟩
        by_cases hq : e.1 = q
        · simp [item, hq, he]
        · simp [item, hq, h2]

private theorem get_attributes (old : Old V) (q : String) (h : q ≠ "bias") : item (moduleAttributes old) q = item old.vars q := by
  unfold moduleAttributes
  cases old.bias with
  | none => rfl
  | some b => simp only [get_dictSet]; rw [if_neg (Ne.symm h)]

private theorem init_inv [DecidableEq V] {sig : Signature V} {rw : List (String × Kw V)} {old : Old V} {name : Option String} {opts : String → Option (Arg V)}
    (hrw : (rw.map Prod.fst).Nodup) (h : initNewModule sig rw old name = some opts) (q : String) :
    opts q = ((item rw q).bind (evaluate (Rewriter.Spec.seen old) name)).or ((if q ∈ sig.keys then (item (moduleAttributes old) q).map (fun a =>
      if q = "bias" then .pyBool (decide (a ≠ .pyNone)) else a) else none).or ((item sig.params q).bind id)) ∧ ((item rw q).isSome → ((item rw q).bind (evaluate (Rewriter.Spec.seen old) name)).isSome) := by
  unfold initNewModule newKwargs evaluateNewKwargs at h
  cases hm : (rw.mapM fun e => (evaluate (Rewriter.Spec.seen old) name e.2).map fun a => (e.1, a)) with
  | none =>
    have : (rw.mapM fun e => (evaluate ({ old with vars := moduleAttributes old } : Old V) name e.2).map fun a => (e.1, a)) = none := hm
    simp only [this] at h
    cases h
  | some u =>
    have hm' : (rw.mapM fun e => (evaluate ({ old with vars := moduleAttributes old } : Old V) name e.2).map fun a => (e.1, a)) = some u := hm
    simp only [hm', Option.map_some, Option.bind_some] at h
    obtain ⟨h1, h2⟩ := mapM_get _ _ _ _ hm
    unfold Signature.call at h
    by_cases hc : (∀ e ∈ update ((mapOriginVars (moduleAttributes old)).filter fun e => decide (e.1 ∈ sig.keys)) u, e.1 ∈ sig.params.map Prod.fst ∨ sig.varKw = true) ∧
        (∀ p ∈ sig.params, p.2 = none → (item (update ((mapOriginVars (moduleAttributes old)).filter fun e => decide (e.1 ∈ sig.keys)) u) p.1).isSome)
    · rw [if_pos hc] at h
      cases h
      refine ⟨?_, fun hs => ?_⟩
      · show (item (update _ u) q).or _ = _
        rw [get_update u _ q (by rw [h1]; exact hrw), h2 q, get_filter (fun k => decide (k ∈ sig.keys)), get_mapVar, Option.or_assoc]
        by_cases hq : q ∈ sig.keys <;> simp [hq]
      · have hmem : q ∈ u.map Prod.fst := by
          rw [h1]
          by_contra hn
          rw [get_none_of_notMem rw q hn] at hs
          cases hs
        rw [← h2 q]
        clear h2 h1 hm hm' hs hc
        induction u with
        | nil => simp at hmem
        | cons e l ih =>
          by_cases he : e.1 = q
          · simp [item, he]
          · simp only [item, he, if_false]
            apply ih
            simpa [Ne.symm he] using hmem
    · rw [if_neg hc] at h
      cases h

/-! ## C135 -/

/-- C135: an option that the old module stores under its name, that the new class has and that the rewriter does not set, is kept. -/
theorem C135_option_kept [DecidableEq V] {sig : Signature V} {rw : List (String × Kw V)} {old : Old V} {name : Option String} {opts : String → Option (Arg V)}
    (hrw : (rw.map Prod.fst).Nodup) (h : initNewModule sig rw old name = some opts) {q : String} {a : Arg V} (hq : q ≠ "bias") (hset : q ∉ rw.map Prod.fst) (hsig : q ∈ sig.keys)
    (hold : item old.vars q = some a) : opts q = some a := by
  rw [(init_inv hrw h q).1, get_none_of_notMem rw q hset, if_pos hsig, get_attributes old q hq, hold]
  simp [hq]

/-- C135: an option that the old module does not store has the default of the new class. -/
theorem C135_default [DecidableEq V] {sig : Signature V} {rw : List (String × Kw V)} {old : Old V} {name : Option String} {opts : String → Option (Arg V)}
    (hrw : (rw.map Prod.fst).Nodup) (h : initNewModule sig rw old name = some opts) {q : String} (hset : q ∉ rw.map Prod.fst)
    (hold : item old.vars q = none) (hb : q = "bias" → old.bias = none) : opts q = (item sig.params q).bind id := by
  rw [(init_inv hrw h q).1, get_none_of_notMem rw q hset]
  have : item (moduleAttributes old) q = none := by
    by_cases hq : q = "bias"
    · unfold moduleAttributes
      rw [hb hq, hold]
    · rw [get_attributes old q hq, hold]
  rw [this]
  simp

/-- C135: what the rewriter sets wins; a lambda is called with the old module, and with its name if it takes two arguments. -/
theorem C135_override [DecidableEq V] {sig : Signature V} {rw : List (String × Kw V)} {old : Old V} {name : Option String} {opts : String → Option (Arg V)}
    (hrw : (rw.map Prod.fst).Nodup) (h : initNewModule sig rw old name = some opts) {q : String} {kw : Kw V} (hset : item rw q = some kw) :
    (∀ a, kw = .value a → opts q = some a) ∧ (∀ f, kw = .lambda1 f → opts q = some (f (Rewriter.Spec.seen old))) ∧
      (∀ f, kw = .lambda2 f → ∃ n, name = some n ∧ opts q = some (f (Rewriter.Spec.seen old) n)) := by
  obtain ⟨h1, h2⟩ := init_inv hrw h q
  rw [hset] at h1 h2
  refine ⟨?_, ?_, ?_⟩
  · rintro a rfl
    rw [h1]; rfl
  · rintro f rfl
    rw [h1]; rfl
  · rintro f rfl
    cases name with
    | none => simp [evaluate] at h2
    | some n => exact ⟨n, rfl, by rw [h1]; rfl⟩

/-- C135: a replacement has a bias exactly if the old layer, whose bias is a parameter or `None`, has one. -/
theorem C135_bias [DecidableEq V] {sig : Signature V} {rw : List (String × Kw V)} {old : Old V} {name : Option String} {opts : String → Option (Arg V)}
    (hrw : (rw.map Prod.fst).Nodup) (h : initNewModule sig rw old name = some opts) (hset : "bias" ∉ rw.map Prod.fst) (hsig : "bias" ∈ sig.keys) {b : Option V}
    (hb : old.bias = some (b.elim .pyNone .data)) : opts "bias" = some (.pyBool b.isSome) := by
  rw [(init_inv hrw h "bias").1, get_none_of_notMem rw _ hset, if_pos hsig]
  have : item (moduleAttributes old) "bias" = some (b.elim .pyNone .data) := by
    unfold moduleAttributes
    rw [hb]
    simp [get_dictSet]
  rw [this]
  cases b <;> simp

/-- C135: the replacement can be made if lambdas take one argument (or two, where the name is known) and the options without default are stored by the old module. -/
theorem C135_replacement_is_made [DecidableEq V] (sig : Signature V) (rw : List (String × Kw V)) (old : Old V) (name : Option String) (hvar : sig.varKw = true)
    (hlam : ∀ e ∈ rw, (∃ a, e.2 = .value a) ∨ (∃ f, e.2 = .lambda1 f) ∨ ∃ f, e.2 = .lambda2 f ∧ name ≠ none) (hrw : (rw.map Prod.fst).Nodup)
    (hreq : ∀ p ∈ sig.params, p.2 = none → (item old.vars p.1).isSome) : (initNewModule sig rw old name).isSome := by
  have hm : ∃ u, (rw.mapM fun e => (evaluate (Rewriter.Spec.seen old) name e.2).map fun a => (e.1, a)) = some u := by
    clear hrw
    induction rw with
    | nil => exact ⟨[], rfl⟩
    | cons e l ih =>
      obtain ⟨u, hu⟩ := ih fun e he => hlam e (List.mem_cons_of_mem _ he)
      have : ∃ a, evaluate (Rewriter.Spec.seen old) name e.2 = some a := by
        rcases hlam e List.mem_cons_self with ⟨a, ha⟩ | ⟨f, hf⟩ | ⟨f, hf, hn⟩
        · exact ⟨a, by rw [ha]; rfl⟩
        · exact ⟨f (Rewriter.Spec.seen old), by rw [hf]; rfl⟩
        · cases name with
          | none => exact absurd rfl hn
          | some n => exact ⟨f (Rewriter.Spec.seen old) n, by rw [hf]; rfl⟩
      obtain ⟨a, ha⟩ := this
      exact ⟨(e.1, a) :: u, by rw [List.mapM_cons, ha, hu]; rfl⟩
  obtain ⟨u, hu⟩ := hm
  have hu' : (rw.mapM fun e => (evaluate ({ old with vars := moduleAttributes old } : Old V) name e.2).map fun a => (e.1, a)) = some u := hu
  unfold initNewModule newKwargs evaluateNewKwargs
  simp only [hu', Option.map_some, Option.bind_some]
  unfold Signature.call
  rw [if_pos]
  · rfl
  · refine ⟨fun _ _ => Or.inr hvar, fun p hp hpn => ?_⟩
    rw [get_update u _ _ (by rw [(mapM_get _ _ _ _ hu).1]; exact hrw), get_filter (fun k => decide (k ∈ sig.keys)), get_mapVar]
    have hk : p.1 ∈ sig.keys := List.mem_append_left _ (List.mem_map_of_mem hp)
    have ha : (item (moduleAttributes old) p.1).isSome := by
      by_cases hq : p.1 = "bias"
      · unfold moduleAttributes
        cases old.bias with
        | none => exact hreq p hp hpn
        | some b => simp [get_dictSet, hq]
      · rw [get_attributes old _ hq]
        exact hreq p hp hpn
    obtain ⟨a, ha⟩ := Option.isSome_iff_exists.mp ha
    rw [ha]
    simp [hk]

/-! ## Layers -/

private theorem get_internals {internals l : List (String × Arg V)} {sig : List String} (h : ∀ e ∈ internals, e.1 ∉ sig) {q : String} (hq : q ∈ sig) :
    item (internals ++ l) q = item l q := by
  rw [get_append, get_none_of_notMem internals q]
  · rfl
  · intro hm
    obtain ⟨e, he, rfl⟩ := List.mem_map.mp hm
    exact h e he hq

/-- C135, linear layers: with any arguments for quantisers, the replacement is made and has the sizes of the old layer and a bias exactly if that has one. -/
theorem C135_linear [DecidableEq V] (w : Arg V) (internals : List (String × Arg V)) (hint : ∀ e ∈ internals, e.1 ∉ (quantLinear w).keys) (i o : V) (b : Option V)
    (rw : List (String × Arg V)) (hrw : (rw.map Prod.fst).Nodup) (hdis : ∀ q ∈ ["in_features", "out_features", "bias"], q ∉ rw.map Prod.fst) (name : Option String) :
    ∃ opts, initNewModule (quantLinear w) (rw.map fun e => (e.1, .value e.2)) (torchLinear internals i o b) name = some opts ∧
      opts "in_features" = some (.data i) ∧ opts "out_features" = some (.data o) ∧ opts "bias" = some (.pyBool b.isSome) ∧ ∀ e ∈ rw, opts e.1 = some e.2 := by
  have hfst : (rw.map fun e => (e.1, (Kw.value e.2 : Kw V))).map Prod.fst = rw.map Prod.fst := by simp [Function.comp_def]
  have hsome := C135_replacement_is_made (quantLinear w) (rw.map fun e => (e.1, .value e.2)) (torchLinear internals i o b) name rfl
    (by intro e he; obtain ⟨e', -, rfl⟩ := List.mem_map.mp he; exact Or.inl ⟨_, rfl⟩) (by rw [hfst]; exact hrw)
    (by
      intro p hp hn
      have hk : p.1 ∈ (quantLinear w).keys := List.mem_append_left _ (List.mem_map_of_mem hp)
      show (item (internals ++ _) p.1).isSome
      rw [get_internals hint hk]
      simp only [quantLinear, quantParams, List.cons_append, List.nil_append, List.mem_cons, List.not_mem_nil, or_false] at hp
      rcases hp with rfl | rfl | rfl | rfl | rfl | rfl | rfl | rfl | rfl | rfl <;> first | (simp [item]; done) | cases hn)
  obtain ⟨opts, ho⟩ := Option.isSome_iff_exists.mp hsome
  have hkeys : ∀ q ∈ ["in_features", "out_features", "bias"], q ∈ (quantLinear w).keys := by
    intro q hq
    simp only [List.mem_cons, List.not_mem_nil, or_false] at hq
    rcases hq with rfl | rfl | rfl <;> simp [Signature.keys, quantLinear]
  have kept : ∀ q ∈ ["in_features", "out_features", "bias"], q ≠ "bias" → ∀ a, item [("in_features", Arg.data i), ("out_features", Arg.data o)] q = some a → opts q = some a := by
    intro q hq hb a ha
    refine C135_option_kept (by rw [hfst]; exact hrw) ho hb (by rw [hfst]; exact hdis q hq) (hkeys q hq) ?_
    show item (internals ++ _) q = _
    rw [get_internals hint (hkeys q hq)]
    exact ha
  refine ⟨opts, ho, kept _ (by simp) (by decide) _ (by simp [item]), kept _ (by simp) (by decide) _ (by simp [item]), ?_, ?_⟩
  · exact C135_bias (by rw [hfst]; exact hrw) ho (by rw [hfst]; exact hdis _ (by simp)) (hkeys _ (by simp)) rfl
  · intro e he
    refine (C135_override (by rw [hfst]; exact hrw) ho (q := e.1) (kw := .value e.2) ?_).1 _ rfl
    clear hsome ho kept hdis hfst
    induction rw with
    | nil => cases he
    | cons e' l ih =>
      rw [List.map_cons, List.nodup_cons] at hrw
      rcases List.mem_cons.mp he with rfl | he
      · simp [item]
      · have hne : e'.1 ≠ e.1 := fun h => hrw.1 (h ▸ List.mem_map_of_mem he)
        rw [List.map_cons]
        simp only [item, hne, if_false]
        exact ih hrw.2 he

private theorem conv_any [DecidableEq V] (sig : Signature V) (hvar : sig.varKw = true) (internals : List (String × Arg V)) (hint : ∀ e ∈ internals, e.1 ∉ sig.keys) (o : ConvOptions V)
    (b : Option V) (t : Bool) (rw : List (String × Arg V)) (hrw : (rw.map Prod.fst).Nodup) (name : Option String) (opt : List (String × Arg V))
    (hopt : ∀ e ∈ opt, e.1 ≠ "bias" ∧ e.1 ∈ sig.keys ∧ item ((torchConv [] o t b).vars) e.1 = some e.2) (hdis : ∀ q ∈ "bias" :: opt.map Prod.fst, q ∉ rw.map Prod.fst)
    (hbias : "bias" ∈ sig.keys) (hreq : ∀ p ∈ sig.params, p.2 = none → (item ((torchConv [] o t b).vars) p.1).isSome) :
    ∃ opts, initNewModule sig (rw.map fun e => (e.1, .value e.2)) (torchConv internals o t b) name = some opts ∧
      (∀ e ∈ opt, opts e.1 = some e.2) ∧ opts "bias" = some (.pyBool b.isSome) := by
  have hfst : (rw.map fun e => (e.1, (Kw.value e.2 : Kw V))).map Prod.fst = rw.map Prod.fst := by simp [Function.comp_def]
  have hsome := C135_replacement_is_made sig (rw.map fun e => (e.1, .value e.2)) (torchConv internals o t b) name hvar
    (by intro e he; obtain ⟨e', -, rfl⟩ := List.mem_map.mp he; exact Or.inl ⟨_, rfl⟩) (by rw [hfst]; exact hrw)
    (by
      intro p hp hn
      have hk : p.1 ∈ sig.keys := List.mem_append_left _ (List.mem_map_of_mem hp)
      show (item (internals ++ _) p.1).isSome
      rw [get_internals hint hk]
      exact hreq p hp hn)
  obtain ⟨opts, ho⟩ := Option.isSome_iff_exists.mp hsome
  refine ⟨opts, ho, ?_, ?_⟩
  · intro e he
    obtain ⟨h1, h2, h3⟩ := hopt e he
    refine C135_option_kept (by rw [hfst]; exact hrw) ho h1 (by rw [hfst]; exact hdis _ (List.mem_cons_of_mem _ (List.mem_map_of_mem he))) h2 ?_
    show item (internals ++ _) e.1 = _
    rw [get_internals hint h2]
    exact h3
  · exact C135_bias (by rw [hfst]; exact hrw) ho (by rw [hfst]; exact hdis _ (by simp)) hbias rfl

/-- C135, convolutions: the replacement is made and has all options of the old layer, and a bias exactly if that has one. -/
theorem C135_conv [DecidableEq V] (w one zero zeros : Arg V) (internals : List (String × Arg V)) (hint : ∀ e ∈ internals, e.1 ∉ (quantConv w one zero zeros).keys) (o : ConvOptions V)
    (b : Option V) (rw : List (String × Arg V)) (hrw : (rw.map Prod.fst).Nodup) (hdis : ∀ q ∈ "bias" :: (Rewriter.Spec.convOptions o).map Prod.fst, q ∉ rw.map Prod.fst) (name : Option String) :
    ∃ opts, initNewModule (quantConv w one zero zeros) (rw.map fun e => (e.1, .value e.2)) (torchConv internals o false b) name = some opts ∧
      (∀ e ∈ Rewriter.Spec.convOptions o, opts e.1 = some e.2) ∧ opts "bias" = some (.pyBool b.isSome) := by
  refine conv_any (quantConv w one zero zeros) rfl internals hint o b false rw hrw name (Rewriter.Spec.convOptions o) ?_ hdis ?_ ?_
  · intro e he
    simp only [Rewriter.Spec.convOptions, List.mem_cons, List.not_mem_nil, or_false] at he
    rcases he with rfl | rfl | rfl | rfl | rfl | rfl | rfl | rfl <;> simp [Signature.keys, quantConv, torchConv, item]
  · simp [Signature.keys, quantConv]
  · intro p hp hn
    simp only [quantConv, quantParams, List.cons_append, List.nil_append, List.mem_cons, List.not_mem_nil, or_false] at hp
    rcases hp with rfl | rfl | rfl | rfl | rfl | rfl | rfl | rfl | rfl | rfl | rfl | rfl | rfl | rfl | rfl | rfl <;> first | (simp [torchConv, item]; done) | cases hn

/-- C135, transposed convolutions: the padding of the output is kept, too. -/
theorem C135_conv_transpose [DecidableEq V] (w one zero zeros : Arg V) (internals : List (String × Arg V)) (hint : ∀ e ∈ internals, e.1 ∉ (quantConvTranspose w one zero zeros).keys)
    (o : ConvOptions V) (b : Option V) (rw : List (String × Arg V)) (hrw : (rw.map Prod.fst).Nodup)
    (hdis : ∀ q ∈ "bias" :: (("output_padding", Arg.data o.outputPadding) :: Rewriter.Spec.convOptions o).map Prod.fst, q ∉ rw.map Prod.fst) (name : Option String) :
    ∃ opts, initNewModule (quantConvTranspose w one zero zeros) (rw.map fun e => (e.1, .value e.2)) (torchConv internals o true b) name = some opts ∧
      (∀ e ∈ ("output_padding", .data o.outputPadding) :: Rewriter.Spec.convOptions o, opts e.1 = some e.2) ∧ opts "bias" = some (.pyBool b.isSome) := by
  refine conv_any (quantConvTranspose w one zero zeros) rfl internals hint o b true rw hrw name (("output_padding", .data o.outputPadding) :: Rewriter.Spec.convOptions o) ?_ hdis ?_ ?_
  · intro e he
    simp only [Rewriter.Spec.convOptions, List.mem_cons, List.not_mem_nil, or_false] at he
    rcases he with rfl | rfl | rfl | rfl | rfl | rfl | rfl | rfl | rfl <;> simp [Signature.keys, quantConvTranspose, torchConv, item]
  · simp [Signature.keys, quantConvTranspose]
  · intro p hp hn
    simp only [quantConvTranspose, quantParams, List.cons_append, List.nil_append, List.mem_cons, List.not_mem_nil, or_false] at hp
    rcases hp with rfl | rfl | rfl | rfl | rfl | rfl | rfl | rfl | rfl | rfl | rfl | rfl | rfl | rfl | rfl | rfl | rfl <;> first | (simp [torchConv, item]; done) | cases hn

/-! ## Disagreements -/

/-- Disagreement: an LSTM without bias is replaced by one with bias. -/
theorem C135_lstm_without_bias [DecidableEq V] (q one : Arg V) (i h n d p : V) (bf bi : Bool) (rw : List (String × Kw V)) (hrw : (rw.map Prod.fst).Nodup) (hset : "bias" ∉ rw.map Prod.fst)
    (name : Option String) {opts : String → Option (Arg V)} (ho : initNewModule (quantLSTM q one) rw (torchLSTM [] i h n d p false bf bi) name = some opts) :
    opts "bias" = some (.pyBool true) := by
  rw [(init_inv hrw ho "bias").1, get_none_of_notMem rw _ hset]
  rfl

/-- Disagreement: dropout between the layers of an LSTM and its projections are lost, unless the rewriter is given them. -/
theorem C135_lstm_dropout_lost [DecidableEq V] (q one : Arg V) (i h n d p : V) (b bf bi : Bool) (rw : List (String × Kw V)) (hrw : (rw.map Prod.fst).Nodup)
    (hset : "dropout" ∉ rw.map Prod.fst ∧ "proj_size" ∉ rw.map Prod.fst) (name : Option String) {opts : String → Option (Arg V)}
    (ho : initNewModule (quantLSTM q one) rw (torchLSTM [] i h n d p b bf bi) name = some opts) : opts "dropout" = none ∧ opts "proj_size" = none := by
  constructor
  · rw [(init_inv hrw ho "dropout").1, get_none_of_notMem rw _ hset.1, if_neg (by simp [Signature.keys, quantLSTM])]
    rfl
  · rw [(init_inv hrw ho "proj_size").1, get_none_of_notMem rw _ hset.2, if_neg (by simp [Signature.keys, quantLSTM])]
    rfl

/-- Disagreement: multi-head attention is always replaced by a layer with bias and without learned key and value, whatever the old layer has. -/
theorem C135_attention_bias [DecidableEq V] (q zero : Arg V) (internals : List (String × Arg V)) (hint : ∀ e ∈ internals, e.1 ∉ (quantMHA q zero).keys) (e n k v d : V) (bf az : Bool)
    (rw : List (String × Kw V)) (hrw : (rw.map Prod.fst).Nodup) (hset : "bias" ∉ rw.map Prod.fst ∧ "add_bias_kv" ∉ rw.map Prod.fst) (name : Option String)
    {opts : String → Option (Arg V)} (ho : initNewModule (quantMHA q zero) rw (torchMHA internals e n k v d bf az) name = some opts) :
    opts "bias" = some (.pyBool true) ∧ opts "add_bias_kv" = some (.pyBool false) := by
  constructor
  · rw [C135_default hrw ho hset.1 (by show item (internals ++ _) _ = none; rw [get_internals hint (by simp [Signature.keys, quantMHA])]; simp [item]) (fun _ => rfl)]
    rfl
  · rw [C135_default hrw ho hset.2 (by show item (internals ++ _) _ = none; rw [get_internals hint (by simp [Signature.keys, quantMHA])]; simp [item]) (fun _ => rfl)]
    rfl

/-- Disagreement: device and number format of a linear layer are not kept: the replacement is made with the defaults of torch. -/
theorem C135_dtype_not_kept [DecidableEq V] (w : Arg V) (internals : List (String × Arg V)) (hint : ∀ e ∈ internals, e.1 ∉ (quantLinear w).keys) (i o : V) (b : Option V)
    (rw : List (String × Kw V)) (hrw : (rw.map Prod.fst).Nodup) (hset : "dtype" ∉ rw.map Prod.fst ∧ "device" ∉ rw.map Prod.fst) (name : Option String)
    {opts : String → Option (Arg V)} (ho : initNewModule (quantLinear w) rw (torchLinear internals i o b) name = some opts) :
    opts "dtype" = some .pyNone ∧ opts "device" = some .pyNone := by
  constructor
  · rw [C135_default hrw ho hset.1 (by show item (internals ++ _) _ = none; rw [get_internals hint (by simp [Signature.keys, quantLinear, quantParams])]; simp [item]) (by simp)]
    rfl
  · rw [C135_default hrw ho hset.2 (by show item (internals ++ _) _ = none; rw [get_internals hint (by simp [Signature.keys, quantLinear, quantParams])]; simp [item]) (by simp)]
    rfl

/-- Disagreement: a lambda with two arguments raises where modules are replaced by class or by name: only the replacement of an instance passes the name. -/
theorem C135_two_arguments_need_name [DecidableEq V] (sig : Signature V) (k : String) (f : Old V → String → Arg V) (rw : List (String × Kw V)) (old : Old V) :
    initNewModule sig ((k, .lambda2 f) :: rw) old none = none := by
  simp [initNewModule, newKwargs, evaluateNewKwargs, evaluate]

/-! ## Examples -/

example : (∀ e ∈ [("training", Arg.pyBool true), ("_parameters", Arg.data 7)], e.1 ∉ (quantLinear (Arg.data 3)).keys) ∧
    (initNewModule (quantLinear (Arg.data 3)) [("bias_quant", .value (.data 9)), ("input_quant", .lambda1 fun m => (item m.vars "in_features").getD .pyNone)]
      (torchLinear [("training", .pyBool true), ("_parameters", .data 7)] 64 10 (some 5)) none).map (fun o =>
        [o "in_features", o "out_features", o "bias", o "bias_quant", o "input_quant", o "weight_quant", o "training"]) =
      some [some (.data 64), some (.data 10), some (.pyBool true), some (.data 9), some (.data 64), some (.data 3), none] := by
  constructor <;> decide

example : (initNewModule (quantLSTM (Arg.data 0) (.data 1)) [] (torchLSTM [] 8 16 2 5 0 false true true) (some "rnn")).map (fun o => (o "bias", o "bidirectional", o "dropout")) =
    some (some (.pyBool true), some (.pyBool true), none) := by decide

example : (initNewModule (quantMHA (Arg.data 0) (.data 0)) [] (torchMHA [] 8 2 8 8 0 true false) (some "attn")).map (fun o => (o "embed_dim", o "bias")) =
    some (some (.data 8), some (.pyBool true)) := by decide

end Brevitas.Props
