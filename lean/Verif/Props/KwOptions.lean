import Verif.Model.KwOptions
import Verif.Props.Inject

/-!
# C129: keyword options of layers reach the quantiser they are addressed to
-/

namespace Brevitas.Props

open Brevitas Brevitas.KwOptions
open Brevitas.Spec (ClassTree)

variable {S : Type}

/-- The start of the names of the options of a quantiser of a layer, as documented. -/
def _root_.Brevitas.KwOptions.Role.prefix : Role → Name
  | .input => "input_".toList
  | .output => "output_".toList
  | .weight => "weight_".toList
  | .bias => "bias_".toList

/-- The quantiser class used when `None` is given. -/
def _root_.Brevitas.KwOptions.Role.noneClass (env : Env S) : Role → ClassTree Name S
  | .input | .output => env.noneAct
  | .weight => env.noneWeight
  | .bias => env.noneBias

/-- The options that the library sets itself. -/
def ownOptions : List Name := ["module".toList, "proxy_module".toList, "act_impl".toList, "passthrough_act".toList]

/-! ## Lookups -/

private theorem lookup_inst (o : Kwargs S) (n : Name) : @List.lookup _ _ instBEqOfDecidableEq n o = o.lookup n := by
  induction o with
  | nil => rfl
  | cons e o ih =>
    obtain ⟨k, v⟩ := e
    have h1 : (n == k) = decide (n = k) := by
      by_cases h : n = k
      · subst h; simp
      · have : (n == k) = false := by simpa using h
        rw [this, decide_eq_false h]
    have h2 : @BEq.beq _ instBEqOfDecidableEq n k = decide (n = k) := rfl
    change (match @BEq.beq _ instBEqOfDecidableEq n k with | true => some v | false => @List.lookup _ _ instBEqOfDecidableEq n o) = _
    rw [h2, ih, List.lookup_cons, h1]
    cases decide (n = k) <;> rfl

private theorem let_option (t : ClassTree Name S) (o : Kwargs S) (n : Name) : dependenciesOf (injectorLet t o) n = (o.lookup n).or (dependenciesOf t n) := by
  rw [C58_let, lookup_inst]

private theorem lookup_filterKwargs (pre n : Name) (kw : Kwargs S) : (filterKwargs pre kw).lookup n = kw.lookup (pre ++ n) := by
  induction kw with
  | nil => rfl
  | cons e kw ih =>
    obtain ⟨k, v⟩ := e
    unfold filterKwargs at ih ⊢
    rw [List.filterMap_cons]
    by_cases hp : pre.isPrefixOf k = true
    · obtain ⟨r, rfl⟩ := List.isPrefixOf_iff_prefix.mp hp
      simp only [hp, if_true, List.drop_left, List.lookup_cons, ih]
      by_cases hn : n = r
      · subst hn; simp
      · have h1 : (n == r) = false := by simpa using hn
        have h2 : (pre ++ n == pre ++ r) = false := by simpa using hn
        rw [h1, h2]
    · have hne : (pre ++ n == k) = false := by
        rw [beq_eq_false_iff_ne]
        rintro rfl
        exact hp (List.isPrefixOf_iff_prefix.mpr (List.prefix_append _ _))
      simp only [hp, Bool.false_eq_true, if_false, ih, List.lookup_cons, hne]

private theorem option_newProxy (env : Env S) (self : ℕ) (t : ClassTree Name S) (n : Name) (h1 : n ≠ "module".toList) (h2 : n ≠ "proxy_module".toList) :
    (newProxy env self t).option n = dependenciesOf t n := by
  unfold newProxy track Proxy.option
  rw [let_option, let_option]
  have e1 : (n == "module".toList) = false := by simpa using h1
  have e2 : (n == "proxy_module".toList) = false := by simpa using h2
  simp only [List.lookup_cons, e1, e2, List.lookup_nil, Option.none_or]

private theorem option_track (env : Env S) (self : ℕ) (p : Proxy S) (n : Name) (h1 : n ≠ "module".toList) : (track env p self).option n = p.option n := by
  unfold track Proxy.option
  rw [let_option]
  have e1 : (n == "module".toList) = false := by simpa using h1
  simp only [List.lookup_cons, e1, List.lookup_nil, Option.none_or]

/-- What a mixin builds. -/
private theorem mixin_spec {env : Env S} {self : ℕ} {fixed : Kwargs S} {pre : Name} {noneQ : ClassTree Name S} {q : QuantArg S} {kw : Kwargs S} {b : Built S}
    (h : mixinInit env self fixed pre noneQ q kw = .ok b) :
    (∀ t, q.base noneQ = some t → b.proxy.tracked = [self] ∧ b.warned = false ∧
      ∀ n, n ≠ "module".toList → n ≠ "proxy_module".toList →
        b.proxy.option n = ((fixed.lookup (pre ++ n)).or (kw.lookup (pre ++ n))).or (dependenciesOf t n)) ∧
    (∀ p, q = .proxy p → b.proxy.tracked = p.tracked ++ [self] ∧ (b.warned = true ↔ ∃ n, (fixed.lookup (pre ++ n)).or (kw.lookup (pre ++ n)) ≠ none) ∧
      ∀ n, n ≠ "module".toList → b.proxy.option n = p.option n) := by
  unfold mixinInit at h
  by_cases hbad : (kw.any fun e => (reserved ++ fixed.map Prod.fst).contains e.1) = true
  · rw [if_pos hbad] at h; exact nomatch h
  rw [if_neg hbad] at h
  have hopt : ∀ n, (filterKwargs pre (fixed ++ kw)).lookup n = (fixed.lookup (pre ++ n)).or (kw.lookup (pre ++ n)) := fun n => by
    rw [lookup_filterKwargs, List.lookup_append]
  cases q with
  | none =>
    cases h
    refine ⟨fun t ht => ?_, nofun⟩
    cases ht
    exact ⟨rfl, rfl, fun n h1 h2 => by rw [option_newProxy _ _ _ _ h1 h2, let_option, hopt]⟩
  | cls t =>
    cases h
    refine ⟨fun t ht => ?_, nofun⟩
    cases ht
    exact ⟨rfl, rfl, fun n h1 h2 => by rw [option_newProxy _ _ _ _ h1 h2, let_option, hopt]⟩
  | proxy p =>
    cases h
    refine ⟨nofun, fun p' hp => ?_⟩
    cases hp
    refine ⟨rfl, ?_, fun n h1 => option_track _ _ _ _ h1⟩
    simp only [← hopt]
    cases hf : filterKwargs pre (fixed ++ kw) with
    | nil => simp
    | cons e es => exact ⟨fun _ => ⟨e.1, by simp⟩, fun _ => by simp⟩
  | other => exact nomatch h

private theorem mixin_isOk {env : Env S} {self : ℕ} {fixed : Kwargs S} {pre : Name} {noneQ : ClassTree Name S} {q : QuantArg S} {kw : Kwargs S} :
    (∃ b, mixinInit env self fixed pre noneQ q kw = .ok b) ↔ (∀ e ∈ kw, e.1 ∉ reserved ∧ e.1 ∉ fixed.map Prod.fst) ∧ q ≠ .other := by
  unfold mixinInit
  by_cases hbad : (kw.any fun e => (reserved ++ fixed.map Prod.fst).contains e.1) = true
  · rw [if_pos hbad]
    constructor
    · rintro ⟨b, hb⟩; exact nomatch hb
    · rintro ⟨hk, -⟩
      obtain ⟨e, he, hc⟩ := List.any_eq_true.mp hbad
      rw [List.contains_iff_mem, List.mem_append] at hc
      exact absurd hc (not_or.mpr (hk e he))
  · rw [if_neg hbad]
    have hk : ∀ e ∈ kw, e.1 ∉ reserved ∧ e.1 ∉ fixed.map Prod.fst := fun e he => by
      rw [← not_or, ← List.mem_append, ← List.contains_iff_mem]
      exact fun hc => hbad (List.any_eq_true.mpr ⟨e, he, hc⟩)
    cases q with
    | none => exact ⟨fun _ => ⟨hk, nofun⟩, fun _ => ⟨_, rfl⟩⟩
    | cls t => exact ⟨fun _ => ⟨hk, nofun⟩, fun _ => ⟨_, rfl⟩⟩
    | proxy p => exact ⟨fun _ => ⟨hk, nofun⟩, fun _ => ⟨_, rfl⟩⟩
    | other =>
      constructor
      · rintro ⟨_, hb⟩; exact nomatch hb
      · rintro ⟨-, h⟩; exact absurd rfl h

private theorem bind_ok {α β : Type} {x : Except Err α} {f : α → Except Err β} {b : β} (h : (x >>= f) = .ok b) : ∃ a, x = .ok a ∧ f a = .ok b := by
  cases x with
  | error e => exact nomatch h
  | ok a => exact ⟨a, rfl, h⟩

private theorem ioLayer_spec {env : Env S} {self : ℕ} {i o : QuantArg S} {kw : Kwargs S} {r : Built S × Built S} (h : ioLayer env self i o false kw = .ok r) :
    inputInit env self i kw = .ok r.1 ∧ outputInit env self o kw = .ok r.2 := by
  obtain ⟨a, ha, h⟩ := bind_ok h
  obtain ⟨b, hb, h⟩ := bind_ok h
  cases h
  exact ⟨ha, hb⟩

private theorem wbiol_parts {env : Env S} {self : ℕ} {args : Role → QuantArg S} {kw : Kwargs S} {l : Role → Built S} (h : wbiol env self args kw = .ok l) :
    inputInit env self (args .input) kw = .ok (l .input) ∧ outputInit env self (args .output) kw = .ok (l .output) ∧
      weightInit env self (args .weight) kw = .ok (l .weight) ∧ biasInit env self (args .bias) kw = .ok (l .bias) := by
  unfold wbiol at h
  by_cases ht : (kw.any fun e => e.1 == "tie_input_output_quant".toList) = true
  · rw [if_pos ht] at h; exact nomatch h
  rw [if_neg ht] at h
  obtain ⟨io, hio, h⟩ := bind_ok h
  obtain ⟨w, hw, h⟩ := bind_ok h
  obtain ⟨b, hb, h⟩ := bind_ok h
  cases h
  exact ⟨(ioLayer_spec hio).1, (ioLayer_spec hio).2, hw, hb⟩

private theorem lookup_fixed {pre a b : Name} {x y : S} {n : Name} (ha : n ≠ a) (hb : n ≠ b) : ([(pre ++ a, x), (pre ++ b, y)] : Kwargs S).lookup (pre ++ n) = none := by
  have e1 : (pre ++ n == pre ++ a) = false := by simpa using ha
  have e2 : (pre ++ n == pre ++ b) = false := by simpa using hb
  simp only [List.lookup_cons, e1, e2, List.lookup_nil]

private theorem lookup_no_bias_flag (kw : Kwargs S) (n : Name) :
    (kw.filter fun e => e.1 != "cache_inference_bias".toList).lookup ("bias_".toList ++ n) = kw.lookup ("bias_".toList ++ n) := by
  induction kw with
  | nil => rfl
  | cons e kw ih =>
    by_cases he : e.1 = "cache_inference_bias".toList
    · have h1 : (e.1 != "cache_inference_bias".toList) = false := by simpa using he
      have h2 : ("bias_".toList ++ n == e.1) = false := by
        rw [beq_eq_false_iff_ne, he]
        intro hc
        have := congrArg List.head? hc
        simp at this
      rw [List.filter_cons, h1, List.lookup_cons, h2]
      simpa using ih
    · have h1 : (e.1 != "cache_inference_bias".toList) = true := by simpa using he
      rw [List.filter_cons, h1, if_pos rfl, List.lookup_cons, List.lookup_cons, ih]

private theorem ownOptions_iff {n : Name} (hn : n ∉ ownOptions) :
    n ≠ "module".toList ∧ n ≠ "proxy_module".toList ∧ n ≠ "act_impl".toList ∧ n ≠ "passthrough_act".toList := by
  simp only [ownOptions, List.mem_cons, List.not_mem_nil, or_false, not_or] at hn
  exact hn

/-- C129: in a layer with weights, an option of a quantiser that is made from a class (or from `None`) has the value of the keyword argument with the quantiser's prefix, if that
was given, and else that of the class. -/
theorem C129_layer_options (env : Env S) (self : ℕ) (args : Role → QuantArg S) (kw : Kwargs S) (l : Role → Built S) (h : wbiol env self args kw = .ok l) (r : Role)
    (t : ClassTree Name S) (ht : (args r).base (r.noneClass env) = some t) (n : Name) (hn : n ∉ ownOptions) :
    (l r).proxy.option n = (kw.lookup (r.prefix ++ n)).or (dependenciesOf t n) ∧ (l r).proxy.tracked = [self] ∧ (l r).warned = false := by
  obtain ⟨n1, n2, n3, n4⟩ := ownOptions_iff hn
  obtain ⟨hi, ho, hw, hb⟩ := wbiol_parts h
  cases r with
  | input =>
    obtain ⟨h1, h2, h3⟩ := (mixin_spec hi).1 t ht
    refine ⟨(h3 n n1 n2).trans ?_, h1, h2⟩
    rw [show ([("input_act_impl".toList, env.pyNone), ("input_passthrough_act".toList, env.pyTrue)] : Kwargs S).lookup ("input_".toList ++ n) = none from
      lookup_fixed (pre := "input_".toList) n3 n4, Option.none_or]; rfl
  | output =>
    obtain ⟨h1, h2, h3⟩ := (mixin_spec ho).1 t ht
    refine ⟨(h3 n n1 n2).trans ?_, h1, h2⟩
    rw [show ([("output_act_impl".toList, env.pyNone), ("output_passthrough_act".toList, env.pyTrue)] : Kwargs S).lookup ("output_".toList ++ n) = none from
      lookup_fixed (pre := "output_".toList) n3 n4, Option.none_or]; rfl
  | weight =>
    obtain ⟨h1, h2, h3⟩ := (mixin_spec hw).1 t ht
    exact ⟨(h3 n n1 n2).trans (by rw [List.lookup_nil, Option.none_or]; rfl), h1, h2⟩
  | bias =>
    obtain ⟨h1, h2, h3⟩ := (mixin_spec hb).1 t ht
    exact ⟨(h3 n n1 n2).trans (by rw [List.lookup_nil, Option.none_or, lookup_no_bias_flag]; rfl), h1, h2⟩

private theorem fixed_spec {env : Env S} {self : ℕ} {x y : S} {pre : Name} {noneQ : ClassTree Name S} {q : QuantArg S} {kw : Kwargs S} {b : Built S}
    (h : mixinInit env self [(pre ++ "act_impl".toList, x), (pre ++ "passthrough_act".toList, y)] pre noneQ q kw = .ok b) (t : ClassTree Name S) (ht : q.base noneQ = some t) :
    b.proxy.option "act_impl".toList = some x ∧ b.proxy.option "passthrough_act".toList = some y := by
  have := ((mixin_spec h).1 t ht).2.2
  constructor
  · rw [this _ (by decide) (by decide), List.lookup_cons]; simp
  · have e : (pre ++ "passthrough_act".toList == pre ++ "act_impl".toList) = false := by simp
    rw [this _ (by decide) (by decide), List.lookup_cons, e, List.lookup_cons]; simp

/-- C129: the quantisers of the input and the output of a layer apply no activation function and pass quant tensors on, and no keyword changes that. -/
theorem C129_layer_no_activation (env : Env S) (self : ℕ) (args : Role → QuantArg S) (kw : Kwargs S) (l : Role → Built S) (h : wbiol env self args kw = .ok l) (r : Role)
    (hr : r = .input ∨ r = .output) (t : ClassTree Name S) (ht : (args r).base (r.noneClass env) = some t) :
    (l r).proxy.option "act_impl".toList = some env.pyNone ∧ (l r).proxy.option "passthrough_act".toList = some env.pyTrue := by
  obtain ⟨hi, ho, -, -⟩ := wbiol_parts h
  rcases hr with rfl | rfl
  · exact fixed_spec (pre := "input_".toList) hi t ht
  · exact fixed_spec (pre := "output_".toList) ho t ht

/-- C129: no keyword is an option of two quantisers of a layer. -/
theorem C129_one_quantiser (r r' : Role) (hr : r ≠ r') (n n' : Name) : r.prefix ++ n ≠ r'.prefix ++ n' := by
  intro h
  have := congrArg List.head? h
  cases r <;> cases r' <;> first | exact hr rfl | simp [Role.prefix] at this

/-- C129: hence what is given for one quantiser, or for none, does not change the options of another. -/
theorem C129_no_interference (env : Env S) (self : ℕ) (args : Role → QuantArg S) (kw kw' : Kwargs S) (l l' : Role → Built S) (h : wbiol env self args kw = .ok l)
    (h' : wbiol env self args kw' = .ok l') (r : Role) (t : ClassTree Name S) (ht : (args r).base (r.noneClass env) = some t)
    (hsame : ∀ n, kw.lookup (r.prefix ++ n) = kw'.lookup (r.prefix ++ n)) (n : Name) (hn : n ∉ ownOptions) :
    (l r).proxy.option n = (l' r).proxy.option n := by
  rw [(C129_layer_options env self args kw l h r t ht n hn).1, (C129_layer_options env self args kw' l' h' r t ht n hn).1, hsame]

/-- The keywords that a layer with weights rejects. -/
def rejected : List Name := ["quant".toList, "proxy_protocol".toList, "none_quant_injector".toList, "proxy_prefix".toList, "kwargs_prefix".toList,
  "tie_input_output_quant".toList, "input_act_impl".toList, "input_passthrough_act".toList, "output_act_impl".toList, "output_passthrough_act".toList]

/-- C129: the constructor accepts every other keyword, also one that is no option of any quantiser: that is ignored without an error. It fails only for these keywords and for
quantisers that are neither classes nor quantisers. -/
theorem C129_accepts (env : Env S) (self : ℕ) (args : Role → QuantArg S) (kw : Kwargs S) :
    (∃ l, wbiol env self args kw = .ok l) ↔ (∀ e ∈ kw, e.1 ∉ rejected) ∧ ∀ r, args r ≠ .other := by
  constructor
  · rintro ⟨l, h⟩
    obtain ⟨hi, ho, hw, hb⟩ := wbiol_parts h
    obtain ⟨ki, qi⟩ := mixin_isOk.mp ⟨_, hi⟩
    obtain ⟨ko, qo⟩ := mixin_isOk.mp ⟨_, ho⟩
    refine ⟨fun e he => ?_, fun r => ?_⟩
    · have h1 := ki e he
      have h2 := ko e he
      have h3 : e.1 ≠ "tie_input_output_quant".toList := fun hc => by
        unfold wbiol at h
        rw [if_pos (List.any_eq_true.mpr ⟨e, he, by simpa using hc⟩)] at h
        exact nomatch h
      simp only [reserved, List.map_cons, List.map_nil, List.mem_cons, List.not_mem_nil, or_false, not_or] at h1 h2
      simp only [rejected, List.mem_cons, List.not_mem_nil, or_false, not_or]
      exact ⟨h1.1.1, h1.1.2.1, h1.1.2.2.1, h1.1.2.2.2.1, h1.1.2.2.2.2, h3, h1.2.1, h1.2.2, h2.2.1, h2.2.2⟩
    · cases r with
      | input => exact qi
      | output => exact qo
      | weight => exact (mixin_isOk.mp ⟨_, hw⟩).2
      | bias => exact (mixin_isOk.mp ⟨_, hb⟩).2
  · rintro ⟨hk, hq⟩
    have hk' : ∀ e ∈ kw, _ := fun e he => by
      have := hk e he
      simp only [rejected, List.mem_cons, List.not_mem_nil, or_false, not_or] at this
      exact this
    have hres : ∀ e ∈ kw, e.1 ∉ reserved := fun e he => by
      obtain ⟨a, b, c, d, f, -⟩ := hk' e he
      simp only [reserved, List.mem_cons, List.not_mem_nil, or_false, not_or]
      exact ⟨a, b, c, d, f⟩
    obtain ⟨bi, hbi⟩ : ∃ b, inputInit env self (args .input) kw = .ok b := mixin_isOk.mpr ⟨fun e he => ⟨hres e he, by
      obtain ⟨-, -, -, -, -, -, a, b, -⟩ := hk' e he
      simpa using ⟨by simpa using a, by simpa using b⟩⟩, hq .input⟩
    obtain ⟨bo, hbo⟩ : ∃ b, outputInit env self (args .output) kw = .ok b := mixin_isOk.mpr ⟨fun e he => ⟨hres e he, by
      obtain ⟨-, -, -, -, -, -, -, -, a, b⟩ := hk' e he
      simpa using ⟨by simpa using a, by simpa using b⟩⟩, hq .output⟩
    obtain ⟨bw, hbw⟩ : ∃ b, weightInit env self (args .weight) kw = .ok b := mixin_isOk.mpr ⟨fun e he => ⟨hres e he, by simp⟩, hq .weight⟩
    obtain ⟨bb, hbb⟩ : ∃ b, biasInit env self (args .bias) kw = .ok b :=
      mixin_isOk.mpr ⟨fun e he => ⟨hres e (List.mem_of_mem_filter he), by simp⟩, hq .bias⟩
    have ht : ¬ (kw.any fun e => e.1 == "tie_input_output_quant".toList) = true := fun hc => by
      obtain ⟨e, he, hc⟩ := List.any_eq_true.mp hc
      obtain ⟨-, -, -, -, -, a, -⟩ := hk' e he
      exact a (by simpa using hc)
    refine ⟨fun | .input => bi | .output => bo | .weight => bw | .bias => bb, ?_⟩
    unfold wbiol ioLayer
    rw [if_neg ht, hbi, hbo, hbw, hbb]
    rfl

/-- C129: a quantiser that exists already keeps all its options whatever keywords are given, and is told about the layer; the layer warns when keywords are addressed to it (for
the input and output also when there are none). -/
theorem C129_existing_quantiser (env : Env S) (self : ℕ) (args : Role → QuantArg S) (kw : Kwargs S) (l : Role → Built S) (h : wbiol env self args kw = .ok l) (r : Role)
    (p : Proxy S) (hp : args r = .proxy p) :
    (∀ n, n ≠ "module".toList → (l r).proxy.option n = p.option n) ∧ (l r).proxy.tracked = p.tracked ++ [self] ∧
      ((l r).warned = true ↔ r = .input ∨ r = .output ∨ ∃ n, kw.lookup (r.prefix ++ n) ≠ none) := by
  obtain ⟨hi, ho, hw, hb⟩ := wbiol_parts h
  cases r with
  | input =>
    obtain ⟨h1, h2, h3⟩ := (mixin_spec hi).2 p hp
    exact ⟨h3, h1, fun _ => .inl rfl, fun _ => h2.mpr ⟨"act_impl".toList, by simp [List.lookup_cons]⟩⟩
  | output =>
    obtain ⟨h1, h2, h3⟩ := (mixin_spec ho).2 p hp
    exact ⟨h3, h1, fun _ => .inr (.inl rfl), fun _ => h2.mpr ⟨"act_impl".toList, by simp [List.lookup_cons]⟩⟩
  | weight =>
    obtain ⟨h1, h2, h3⟩ := (mixin_spec hw).2 p hp
    refine ⟨h3, h1, h2.trans ?_⟩
    simp only [List.lookup_nil, Option.none_or, reduceCtorEq, false_or]
    rfl
  | bias =>
    obtain ⟨h1, h2, h3⟩ := (mixin_spec hb).2 p hp
    refine ⟨h3, h1, h2.trans ?_⟩
    simp only [List.lookup_nil, Option.none_or, lookup_no_bias_flag, reduceCtorEq, false_or]
    rfl

/-! ## Activation layers -/

private theorem act_spec {env : Env S} {self : ℕ} {impl pass : S} {pre : Name} {q : QuantArg S} {kw : Kwargs S} {b : Built S}
    (h : actInit env self impl pass pre q kw = .ok b) (t : ClassTree Name S) (ht : q.base env.noneAct = some t) (n : Name) (hn : n ∉ ownOptions) :
    b.proxy.option n = (kw.lookup (pre ++ n)).or (dependenciesOf t n) := by
  obtain ⟨n1, n2, n3, n4⟩ := ownOptions_iff hn
  rw [((mixin_spec h).1 t ht).2.2 n n1 n2, lookup_fixed n3 n4, Option.none_or]

private theorem identity_act {env : Env S} {self : ℕ} {pre : Name} {q : QuantArg S} {kw : Kwargs S} {l : ActLayer S} (h : quantIdentity env self pre q kw = .ok l) :
    actInit env self env.pyNone env.pyTrue pre q kw = .ok l.act := by
  obtain ⟨i, -, h⟩ := bind_ok h
  obtain ⟨a, ha, h⟩ := bind_ok h
  cases h
  exact ha

/-- C129: the options of the quantiser of an activation layer are the keyword arguments themselves, those of the quantiser of its input have the prefix. -/
theorem C129_activation_options (env : Env S) (self : ℕ) (impl pass : S) (inputQuant actQuant : QuantArg S) (kw : Kwargs S) (l : ActLayer S)
    (h : nlal env self impl pass [] inputQuant actQuant kw = .ok l) (n : Name) (hn : n ∉ ownOptions) :
    (∀ t, actQuant.base env.noneAct = some t → l.act.proxy.option n = (kw.lookup n).or (dependenciesOf t n)) ∧
      ∀ t, inputQuant.base env.noneAct = some t → l.input.proxy.option n = (kw.lookup ("input_".toList ++ n)).or (dependenciesOf t n) := by
  obtain ⟨i, hi, h⟩ := bind_ok h
  obtain ⟨a, ha, h⟩ := bind_ok h
  cases h
  refine ⟨fun t ht => act_spec ha t ht n hn, fun t ht => ?_⟩
  obtain ⟨n1, n2, n3, n4⟩ := ownOptions_iff hn
  rw [((mixin_spec hi).1 t ht).2.2 n n1 n2, show ([("input_act_impl".toList, env.pyNone), ("input_passthrough_act".toList, env.pyTrue)] : Kwargs S).lookup ("input_".toList ++ n) = none from
      lookup_fixed (pre := "input_".toList) n3 n4, Option.none_or]

/-- C129: the quantiser of an activation layer has the layer's activation function. -/
theorem C129_activation_function (env : Env S) (self : ℕ) (impl pass : S) (inputQuant actQuant : QuantArg S) (kw : Kwargs S) (l : ActLayer S)
    (h : nlal env self impl pass [] inputQuant actQuant kw = .ok l) (t : ClassTree Name S) (ht : actQuant.base env.noneAct = some t) :
    l.act.proxy.option "act_impl".toList = some impl ∧ l.act.proxy.option "passthrough_act".toList = some pass := by
  obtain ⟨i, hi, h⟩ := bind_ok h
  obtain ⟨a, ha, h⟩ := bind_ok h
  cases h
  exact fixed_spec ha t ht

/-! ## Attention -/

private theorem linear_wbiol {env : Env S} {self : ℕ} {args : Role → QuantArg S} {kw : Kwargs S} {l : Role → Built S} (h : quantLinear env self args kw = .ok l) :
    wbiol env self args kw = .ok l := by
  unfold quantLinear at h
  by_cases hb : (kw.any fun e => linearArgs.contains e.1) = true
  · rw [if_pos hb] at h; exact nomatch h
  · rwa [if_neg hb] at h

/-- C129: in attention layers the options of the quantisers of the projections have the prefix of the projection before that of the quantiser, with one input projection or with
three alike; the other quantisers have prefixes of their own. -/
theorem C129_attention_options (env : Env S) (self : ℕ) (packed : Bool) (inArgs outArgs : Role → QuantArg S) (actArgs : MhaAct → QuantArg S) (kw : Kwargs S) (m : Mha S)
    (h : mha env self packed inArgs outArgs actArgs kw = .ok m) (n : Name) (hn : n ∉ ownOptions) :
    m.inProj.length = (if packed then 1 else 3) ∧
      (∀ l ∈ m.inProj, ∀ r t, (inArgs r).base (r.noneClass env) = some t →
        (l r).proxy.option n = (kw.lookup ("in_proj_".toList ++ (r.prefix ++ n))).or (dependenciesOf t n)) ∧
      (∀ r t, (outArgs r).base (r.noneClass env) = some t →
        (m.outProj r).proxy.option n = (kw.lookup ("out_proj_".toList ++ (r.prefix ++ n))).or (dependenciesOf t n)) ∧
      ∀ a t, (actArgs a).base env.noneAct = some t → (m.acts a).proxy.option n = (kw.lookup (a.pre ++ n)).or (dependenciesOf t n) := by
  obtain ⟨ins, hins, h⟩ := bind_ok h
  obtain ⟨out, hout, h⟩ := bind_ok h
  obtain ⟨a1, h1, h⟩ := bind_ok h
  obtain ⟨a2, h2, h⟩ := bind_ok h
  obtain ⟨a3, h3, h⟩ := bind_ok h
  obtain ⟨a4, h4, h⟩ := bind_ok h
  obtain ⟨a5, h5, h⟩ := bind_ok h
  cases h
  have hin : ∀ i l, quantLinear env i inArgs (filterKwargs "in_proj_".toList kw) = .ok l → ∀ r t, (inArgs r).base (r.noneClass env) = some t →
      (l r).proxy.option n = (kw.lookup ("in_proj_".toList ++ (r.prefix ++ n))).or (dependenciesOf t n) := fun i l hl r t ht => by
    rw [(C129_layer_options env i inArgs _ l (linear_wbiol hl) r t ht n hn).1, lookup_filterKwargs]
  have hins' : ins.length = (if packed then 1 else 3) ∧ ∀ l ∈ ins, ∃ i, quantLinear env i inArgs (filterKwargs "in_proj_".toList kw) = .ok l := by
    cases packed with
    | true =>
      simp only [if_true, List.mapM_cons, List.mapM_nil] at hins
      obtain ⟨x, hx, hins⟩ := bind_ok hins
      cases hins
      exact ⟨rfl, fun l hl => ⟨self, by rw [List.mem_singleton.mp hl]; exact hx⟩⟩
    | false =>
      simp only [Bool.false_eq_true, if_false, List.mapM_cons, List.mapM_nil] at hins
      obtain ⟨x, hx, hins⟩ := bind_ok hins
      obtain ⟨ys, hys, hins⟩ := bind_ok hins
      cases hins
      obtain ⟨y, hy, hys⟩ := bind_ok hys
      obtain ⟨zs, hzs, hys⟩ := bind_ok hys
      cases hys
      obtain ⟨z, hz, hzs⟩ := bind_ok hzs
      cases hzs
      refine ⟨rfl, fun l hl => ?_⟩
      simp only [List.mem_cons] at hl
      rcases hl with rfl | rfl | rfl | hl
      · exact ⟨_, hx⟩
      · exact ⟨_, hy⟩
      · exact ⟨_, hz⟩
      · exact nomatch hl
  refine ⟨hins'.1, fun l hl r t ht => ?_, fun r t ht => ?_, fun a t ht => ?_⟩
  · obtain ⟨i, hi⟩ := hins'.2 l hl
    exact hin i l hi r t ht
  · rw [(C129_layer_options env _ outArgs _ out (linear_wbiol hout) r t ht n hn).1, lookup_filterKwargs]
  · cases a with
    | softmaxInput => rw [act_spec (identity_act h1) t ht n hn, List.nil_append, lookup_filterKwargs]
    | attnOutputWeights => rw [act_spec (identity_act h2) t ht n hn, List.nil_append, lookup_filterKwargs]
    | qScaled => rw [act_spec (identity_act h3) t ht n hn, List.nil_append, lookup_filterKwargs]
    | kTransposed => rw [act_spec (identity_act h4) t ht n hn, List.nil_append, lookup_filterKwargs]
    | v => rw [act_spec (identity_act h5) t ht n hn, List.nil_append, lookup_filterKwargs]

/-! ## Recurrent layers -/

/-- The start of the names of the options of a quantiser of a recurrent layer. -/
def _root_.Brevitas.KwOptions.RnnRole.prefix : RnnRole → Name
  | .io => "io_".toList
  | .gateAcc => "gate_acc_".toList
  | .cellState => "cell_state_".toList
  | .sigmoid => "sigmoid_".toList
  | .tanh => "tanh_".toList
  | .weight => "weight_".toList
  | .bias => "bias_".toList

/-- The quantiser class used when `None` is given. -/
def _root_.Brevitas.KwOptions.RnnRole.noneClass (env : Env S) : RnnRole → ClassTree Name S
  | .weight => env.noneWeight
  | .bias => env.noneBias
  | _ => env.noneAct

private theorem nlal_act {env : Env S} {self : ℕ} {impl pass : S} {pre : Name} {i q : QuantArg S} {kw : Kwargs S} {l : ActLayer S}
    (h : nlal env self impl pass pre i q kw = .ok l) : actInit env self impl pass pre q kw = .ok l.act := by
  obtain ⟨i, -, h⟩ := bind_ok h
  obtain ⟨a, ha, h⟩ := bind_ok h
  cases h
  exact ha

private theorem weight_spec {env : Env S} {self : ℕ} {q : QuantArg S} {kw : Kwargs S} {b : Built S} (h : weightInit env self q kw = .ok b) (t : ClassTree Name S)
    (ht : q.base env.noneWeight = some t) (n : Name) (hn : n ∉ ownOptions) : b.proxy.option n = (kw.lookup ("weight_".toList ++ n)).or (dependenciesOf t n) := by
  obtain ⟨n1, n2, -, -⟩ := ownOptions_iff hn
  rw [((mixin_spec h).1 t ht).2.2 n n1 n2, List.lookup_nil, Option.none_or]

private theorem bias_spec {env : Env S} {self : ℕ} {q : QuantArg S} {kw : Kwargs S} {b : Built S} (h : biasInit env self q kw = .ok b) (t : ClassTree Name S)
    (ht : q.base env.noneBias = some t) (n : Name) (hn : n ∉ ownOptions) : b.proxy.option n = (kw.lookup ("bias_".toList ++ n)).or (dependenciesOf t n) := by
  obtain ⟨n1, n2, -, -⟩ := ownOptions_iff hn
  rw [((mixin_spec h).1 t ht).2.2 n n1 n2, List.lookup_nil, Option.none_or, lookup_no_bias_flag]

/-- C129: in LSTM layers every quantiser takes its options from the keywords with its prefix. -/
theorem C129_lstm_options (env : Env S) (self : ℕ) (sig tanh pyFalse : S) (args : RnnRole → QuantArg S) (kw : Kwargs S) (l : RnnRole → Option (Built S))
    (h : lstmLayer env self sig tanh pyFalse args kw = .ok l) (r : RnnRole) (t : ClassTree Name S) (ht : (args r).base (r.noneClass env) = some t) (n : Name)
    (hn : n ∉ ownOptions) : ∃ b, l r = some b ∧ b.proxy.option n = (kw.lookup (r.prefix ++ n)).or (dependenciesOf t n) := by
  obtain ⟨io, hio, h⟩ := bind_ok h
  obtain ⟨cell, hcell, h⟩ := bind_ok h
  obtain ⟨acc, hacc, h⟩ := bind_ok h
  obtain ⟨sg, hsg, h⟩ := bind_ok h
  obtain ⟨th, hth, h⟩ := bind_ok h
  obtain ⟨b, hb, h⟩ := bind_ok h
  obtain ⟨w, hw, h⟩ := bind_ok h
  cases h
  cases r with
  | io => exact ⟨_, rfl, act_spec (identity_act hio) t ht n hn⟩
  | gateAcc => exact ⟨_, rfl, act_spec (identity_act hacc) t ht n hn⟩
  | cellState => exact ⟨_, rfl, act_spec (identity_act hcell) t ht n hn⟩
  | sigmoid => exact ⟨_, rfl, act_spec (nlal_act hsg) t ht n hn⟩
  | tanh => exact ⟨_, rfl, act_spec (nlal_act hth) t ht n hn⟩
  | weight => exact ⟨_, rfl, weight_spec hw t ht n hn⟩
  | bias => exact ⟨_, rfl, bias_spec hb t ht n hn⟩

/-- C129: so it is in RNN layers, but for the quantiser of the gate's accumulator, whose keywords start with `gate_acc_quant_`. -/
theorem C129_rnn_options (env : Env S) (self : ℕ) (args : RnnRole → QuantArg S) (kw : Kwargs S) (l : RnnRole → Option (Built S)) (h : rnnLayer env self args kw = .ok l)
    (r : RnnRole) (hr : r = .io ∨ r = .gateAcc ∨ r = .weight ∨ r = .bias) (t : ClassTree Name S) (ht : (args r).base (r.noneClass env) = some t) (n : Name)
    (hn : n ∉ ownOptions) :
    ∃ b, l r = some b ∧ b.proxy.option n = (kw.lookup ((if r = .gateAcc then "gate_acc_quant_".toList else r.prefix) ++ n)).or (dependenciesOf t n) := by
  obtain ⟨io, hio, h⟩ := bind_ok h
  obtain ⟨acc, hacc, h⟩ := bind_ok h
  obtain ⟨b, hb, h⟩ := bind_ok h
  obtain ⟨w, hw, h⟩ := bind_ok h
  cases h
  rcases hr with rfl | rfl | rfl | rfl
  · exact ⟨_, rfl, act_spec (identity_act hio) t ht n hn⟩
  · exact ⟨_, rfl, act_spec (identity_act hacc) t ht n hn⟩
  · exact ⟨_, rfl, weight_spec hw t ht n hn⟩
  · exact ⟨_, rfl, bias_spec hb t ht n hn⟩

/-! ## What does not hold -/

/-- The environment of the examples: entries are numbers. -/
private def exampleEnv : Env ℕ := ⟨0, fun _ => 0, 0, 1, .mk [("quant_type".toList, 100)] [], .mk [] [], .mk [] [], fun _ => false⟩

/-- A quantiser with 8 bits. -/
private def eightBit : ClassTree Name ℕ := .mk [("bit_width".toList, 8), ("signed".toList, 1)] []

private theorem ok_of_isSome {α : Type} {x : Except Err α} (h : x.toOption.isSome = true) : ∃ a, x = .ok a := by
  cases x with
  | error e => exact nomatch h
  | ok a => exact ⟨a, rfl⟩

private theorem eightBit_bits : dependenciesOf eightBit "bit_width".toList = some 8 := by
  simp [dependenciesOf, eightBit, flattenClass]

private theorem eightBit_signed : dependenciesOf eightBit "signed".toList = some 1 := by
  simp [dependenciesOf, eightBit, flattenClass]
  decide +kernel

private theorem bits_not_own : "bit_width".toList ∉ ownOptions := by decide

/-- Disagreement: the number of bits of the gate's accumulator cannot be set in RNN layers with the keyword that LSTM layers have for it; it is ignored. -/
theorem C129_rnn_ignores_gate_acc :
    (∃ l b, rnnLayer exampleEnv 0 (fun _ => .cls eightBit) [("gate_acc_bit_width".toList, 4)] = .ok l ∧ l .gateAcc = some b ∧
      b.proxy.option "bit_width".toList = some 8) ∧
    ∃ l b, lstmLayer exampleEnv 0 0 0 0 (fun _ => .cls eightBit) [("gate_acc_bit_width".toList, 4)] = .ok l ∧ l .gateAcc = some b ∧
      b.proxy.option "bit_width".toList = some 4 := by
  constructor
  · obtain ⟨l, hl⟩ := ok_of_isSome (x := rnnLayer exampleEnv 0 (fun _ => .cls eightBit) [("gate_acc_bit_width".toList, 4)]) (by decide +kernel)
    obtain ⟨b, hb, ho⟩ := C129_rnn_options _ _ _ _ l hl .gateAcc (.inr (.inl rfl)) eightBit rfl _ bits_not_own
    refine ⟨l, b, hl, hb, ?_⟩
    rw [ho, eightBit_bits]
    decide +kernel
  · obtain ⟨l, hl⟩ := ok_of_isSome (x := lstmLayer exampleEnv 0 0 0 0 (fun _ => .cls eightBit) [("gate_acc_bit_width".toList, 4)]) (by decide +kernel)
    obtain ⟨b, hb, ho⟩ := C129_lstm_options _ _ _ _ _ _ _ l hl .gateAcc eightBit rfl _ bits_not_own
    refine ⟨l, b, hl, hb, ?_⟩
    rw [ho, eightBit_bits]
    decide +kernel

/-- Disagreement: asking for the same quantiser at the input and the output of an addition or concatenation always raises. -/
theorem C129_tied_quantisers_raise (env : Env S) (self : ℕ) (i o : QuantArg S) (kw : Kwargs S) : ∀ r, ioLayer env self i o true kw ≠ .ok r := by
  intro r h
  obtain ⟨a, ha, h⟩ := bind_ok h
  obtain ⟨b, hb, h⟩ := bind_ok h
  simp only [if_true] at h
  by_cases he : env.enabled a.proxy = true
  · rw [if_pos he] at h; exact nomatch h
  · rw [if_neg he] at h; exact nomatch h

/-! ## Examples -/

example : ∃ l, wbiol exampleEnv 7 (fun _ => .cls eightBit) [("weight_bit_width".toList, 4), ("wieght_signed".toList, 0)] = .ok l ∧
    (l .weight).proxy.option "bit_width".toList = some 4 ∧ (l .weight).proxy.option "signed".toList = some 1 ∧ (l .input).proxy.option "bit_width".toList = some 8 := by
  obtain ⟨l, hl⟩ := (C129_accepts exampleEnv 7 (fun _ => .cls eightBit) [("weight_bit_width".toList, 4), ("wieght_signed".toList, 0)]).mpr
    ⟨by decide +kernel, fun _ => nofun⟩
  refine ⟨l, hl, ?_, ?_, ?_⟩
  · rw [(C129_layer_options _ _ _ _ l hl .weight eightBit rfl _ bits_not_own).1, eightBit_bits]; decide +kernel
  · rw [(C129_layer_options _ _ _ _ l hl .weight eightBit rfl "signed".toList (by decide)).1, eightBit_signed]; decide +kernel
  · rw [(C129_layer_options _ _ _ _ l hl .input eightBit rfl _ bits_not_own).1, eightBit_bits]; decide +kernel

example : ∃ l, wbiol exampleEnv 7 (fun r => if r = .weight then .proxy ⟨eightBit, [3]⟩ else .none) [("weight_bit_width".toList, 4)] = .ok l ∧
    (l .weight).proxy.option "bit_width".toList = some 8 ∧ (l .weight).proxy.tracked = [3, 7] ∧ (l .weight).warned = true := by
  obtain ⟨l, hl⟩ := (C129_accepts exampleEnv 7 (fun r => if r = .weight then .proxy ⟨eightBit, [3]⟩ else .none) [("weight_bit_width".toList, 4)]).mpr
    ⟨by decide +kernel, fun r => by cases r <;> nofun⟩
  obtain ⟨h1, h2, h3⟩ := C129_existing_quantiser _ _ _ _ l hl .weight ⟨eightBit, [3]⟩ rfl
  exact ⟨l, hl, (h1 _ (by decide)).trans eightBit_bits, h2, h3.mpr (.inr (.inr ⟨"bit_width".toList, by decide +kernel⟩))⟩

example : ∃ m, mha exampleEnv 0 false (fun _ => .cls eightBit) (fun _ => .cls eightBit) (fun _ => .cls eightBit)
      [("in_proj_weight_bit_width".toList, 4), ("v_bit_width".toList, 6)] = .ok m ∧
    (∀ l ∈ m.inProj, (l .weight).proxy.option "bit_width".toList = some 4) ∧ (m.outProj .weight).proxy.option "bit_width".toList = some 8 := by
  obtain ⟨m, hm⟩ := ok_of_isSome (x := mha exampleEnv 0 false (fun _ => .cls eightBit) (fun _ => .cls eightBit) (fun _ => .cls eightBit)
      [("in_proj_weight_bit_width".toList, 4), ("v_bit_width".toList, 6)]) (by decide +kernel)
  obtain ⟨-, h2, h3, -⟩ := C129_attention_options _ _ _ _ _ _ _ m hm _ bits_not_own
  refine ⟨m, hm, fun l hl => ?_, ?_⟩
  · rw [h2 l hl .weight eightBit rfl, eightBit_bits]; decide +kernel
  · rw [h3 .weight eightBit rfl, eightBit_bits]; decide +kernel

example : ∃ l, nlal exampleEnv 0 5 1 [] (.cls eightBit) (.cls eightBit) [("bit_width".toList, 4), ("input_bit_width".toList, 6)] = .ok l ∧
    l.act.proxy.option "bit_width".toList = some 4 ∧ l.input.proxy.option "bit_width".toList = some 6 := by
  obtain ⟨l, hl⟩ := ok_of_isSome (x := nlal exampleEnv 0 5 1 [] (.cls eightBit) (.cls eightBit) [("bit_width".toList, 4), ("input_bit_width".toList, 6)]) (by decide +kernel)
  obtain ⟨h1, h2⟩ := C129_activation_options _ _ _ _ _ _ _ l hl _ bits_not_own
  refine ⟨l, hl, ?_, ?_⟩
  · rw [h1 eightBit rfl, eightBit_bits]; decide +kernel
  · rw [h2 eightBit rfl, eightBit_bits]; decide +kernel

example : ∀ l, wbiol exampleEnv 7 (fun _ => .none) [("input_act_impl".toList, 4)] ≠ .ok l := fun l hl =>
  ((C129_accepts exampleEnv 7 (fun _ => .none) [("input_act_impl".toList, 4)]).mp ⟨l, hl⟩).1 _ (.head _) (by decide +kernel)

end Brevitas.Props
