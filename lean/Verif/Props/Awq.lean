import Verif.Spec.Decoder
import Mathlib.Analysis.SpecialFunctions.Pow.Real
import Mathlib.Algebra.BigOperators.Field
import Mathlib.Tactic.FieldSimp
import Mathlib.Tactic.Linarith
import Mathlib.Tactic.NormNum

/-!
# C80: AWQ scaling does not change what decoder layers compute
-/

set_option linter.unusedSectionVars false

namespace Brevitas.Awq

open Finset Spec

section
variable {K : Type*} [Field K]

/-- The submodules of an OPT decoder layer. -/
structure OptLayer (K : Type*) where
  attnNorm : Norm K
  q : Linear K
  k : Linear K
  v : Linear K
  out : Linear K
  finalNorm : Norm K
  fc1 : Linear K
  fc2 : Linear K

/-- The submodules by their names. -/
def OptLayer.ops (L : OptLayer K) : OptName → Op K
  | .attnNorm => .norm L.attnNorm
  | .q => .linear L.q
  | .k => .linear L.k
  | .v => .linear L.v
  | .out => .linear L.out
  | .finalNorm => .norm L.finalNorm
  | .fc1 => .linear L.fc1
  | .fc2 => .linear L.fc2

/-- The sizes of the layers: `d` features in and out of the layer, `e` in the heads and `f` inside. -/
structure OptLayer.Sizes (L : OptLayer K) (d e f : ℕ) : Prop where
  attnNorm : L.attnNorm.dim = d
  q : L.q.inFeatures = d
  k : L.k.inFeatures = d
  v : L.v.inFeatures = d
  vOut : L.v.outFeatures = e
  out : L.out.inFeatures = e
  finalNorm : L.finalNorm.dim = d
  fc1 : L.fc1.inFeatures = d
  fc1Out : L.fc1.outFeatures = f
  fc2 : L.fc2.inFeatures = f

/-- The submodules of a Llama decoder layer. -/
structure LlamaLayer (K : Type*) where
  inputNorm : Norm K
  q : Linear K
  k : Linear K
  v : Linear K
  o : Linear K
  postNorm : Norm K
  gate : Linear K
  up : Linear K
  down : Linear K

/-- The submodules by their names. -/
def LlamaLayer.ops (L : LlamaLayer K) : LlamaName → Op K
  | .inputNorm => .norm L.inputNorm
  | .q => .linear L.q
  | .k => .linear L.k
  | .v => .linear L.v
  | .o => .linear L.o
  | .postNorm => .norm L.postNorm
  | .gate => .linear L.gate
  | .up => .linear L.up
  | .down => .linear L.down

/-- The sizes of the layers: `e` features of the values, each of which is used by `groups` heads. -/
structure LlamaLayer.Sizes (L : LlamaLayer K) (d e f groups : ℕ) : Prop where
  inputNorm : L.inputNorm.dim = d
  q : L.q.inFeatures = d
  k : L.k.inFeatures = d
  v : L.v.inFeatures = d
  vOut : L.v.outFeatures = e
  o : L.o.inFeatures = groups * e
  postNorm : L.postNorm.dim = d
  gate : L.gate.inFeatures = d
  up : L.up.inFeatures = d
  upOut : L.up.outFeatures = f
  down : L.down.inFeatures = f

/-! ## Lemmas -/

theorem opRow_norm_div (n : Norm K) (s : Scales K) (x : ℕ → K) (c : ℕ) : opRow (.norm (n.div s)) x c = opRow (.norm n) x c / s.val c := by
  obtain ⟨dim, core, w, b⟩ := n
  unfold opRow Norm.div
  cases b with
  | none => simp [mul_div_assoc]
  | some b => simp [mul_div_assoc, add_div]

theorem opRow_divOut (l : Linear K) (s : Scales K) (x : ℕ → K) (o : ℕ) :
    opRow (.linear (l.divOut s)) x o = opRow (.linear l) x o / s.val o := by
  obtain ⟨p, n, w, b⟩ := l
  unfold opRow Linear.divOut
  have h : ∑ i ∈ range n, w o i / s.val o * x i = (∑ i ∈ range n, w o i * x i) / s.val o := by
    rw [sum_div]
    exact sum_congr rfl fun i _ => by rw [div_mul_eq_mul_div]
  cases b with
  | none => simp [h]
  | some b => simp [h, add_div]

theorem opRow_mulIn (l : Linear K) (s : Scales K) {x y : ℕ → K} (hs : ∀ i < l.inFeatures, s.val i ≠ 0)
    (h : ∀ i < l.inFeatures, y i = x i / s.val i) (o : ℕ) : opRow (.linear (l.mulIn s)) y o = opRow (.linear l) x o := by
  unfold opRow Linear.mulIn
  refine congrArg (· + _) ?_
  refine sum_congr rfl fun i hi => ?_
  have hi' := mem_range.mp hi
  show l.weight o i * s.val i * y i = _
  rw [h i hi', mul_assoc, mul_div_cancel₀ _ (hs i hi')]

theorem divOut_mulIn (l : Linear K) (s r : Scales K) : (l.mulIn s).divOut r = (l.divOut r).mulIn s := by
  unfold Linear.mulIn Linear.divOut
  congr 1
  funext o i
  exact mul_div_right_comm _ _ _

theorem heads_div (A : Attention K) (hg : A.groups = 1) (T : ℕ) (q k v v' : ℕ → ℕ → K) (s : Scales K) (h : ∀ t o, v' t o = v t o / s.val o) (t j : ℕ) :
    A.heads T q k v' t j = A.heads T q k v t j / s.val j := by
  unfold Attention.heads
  have hj : j / A.headDim / A.groups * A.headDim + j % A.headDim = j := by rw [hg, Nat.div_one, Nat.div_add_mod']
  rw [hj, sum_div]
  exact sum_congr rfl fun i _ => by rw [h, mul_div_assoc]

/-- The OPT layer after scaling. -/
def OptLayer.scaled (L : OptLayer K) (s1 s2 s3 s4 : Scales K) : OptLayer K where
  attnNorm := L.attnNorm.div s1
  q := L.q.mulIn s1
  k := L.k.mulIn s1
  v := (L.v.mulIn s1).divOut s2
  out := L.out.mulIn s2
  finalNorm := L.finalNorm.div s3
  fc1 := (L.fc1.mulIn s3).divOut s4
  fc2 := L.fc2.mulIn s4

/-- The recorded inputs of an OPT layer after scaling. -/
def optFeats (feats : OptName → ℕ → ℕ → K) (s1 s2 s3 s4 : Scales K) : OptName → ℕ → ℕ → K
  | .q => fun t c => feats .q t c / s1.val c
  | .k => fun t c => feats .k t c / s1.val c
  | .v => fun t c => feats .v t c / s1.val c
  | .out => fun t c => feats .out t c / s2.val c
  | .fc1 => fun t c => feats .fc1 t c / s3.val c
  | .fc2 => fun t c => feats .fc2 t c / s4.val c
  | n => feats n

theorem applyScale_opt (L : OptLayer K) {d e f : ℕ} (hL : L.Sizes d e f) (feats : OptName → ℕ → ℕ → K) {s1 s2 s3 s4 : Scales K}
    (h1 : s1.len = d) (h2 : s2.len = e) (h3 : s3.len = d) (h4 : s4.len = f) :
    applyScale L.ops feats (optScales s1 s2 s3 s4) = some ((L.scaled s1 s2 s3 s4).ops, optFeats feats s1 s2 s3 s4) := by
  obtain ⟨a1, a2, a3, a4, a5, a6, a7, a8, a9, a10⟩ := hL
  simp [applyScale, optScales, applyEntry, mulLayers, divFeats, OptLayer.ops, a1, a2, a3, a4, a5, a6, a7, a8, a9, a10, h1, h2, h3, h4,
    Function.update, Linear.mulIn, Linear.divOut]
  refine ⟨?_, ?_⟩
  · funext n
    cases n <;> simp [OptLayer.ops, OptLayer.scaled, Linear.mulIn, Linear.divOut, a1, a2, a3, a4, a5, a6, a7, a8, a9, a10]
  · funext n
    cases n <;> simp [optFeats]

/-- The Llama layer after scaling. -/
def LlamaLayer.scaled (L : LlamaLayer K) (s1 s2 s3 s4 : Scales K) : LlamaLayer K where
  inputNorm := L.inputNorm.div s1
  q := L.q.mulIn s1
  k := L.k.mulIn s1
  v := (L.v.mulIn s1).divOut s2
  o := L.o.mulIn s2
  postNorm := L.postNorm.div s3
  gate := L.gate.mulIn s3
  up := (L.up.mulIn s3).divOut s4
  down := L.down.mulIn s4

/-- The recorded inputs of a Llama layer after scaling. -/
def llamaFeats (feats : LlamaName → ℕ → ℕ → K) (s1 s2 s3 s4 : Scales K) : LlamaName → ℕ → ℕ → K
  | .q => fun t c => feats .q t c / s1.val c
  | .k => fun t c => feats .k t c / s1.val c
  | .v => fun t c => feats .v t c / s1.val c
  | .o => fun t c => feats .o t c / s2.val c
  | .gate => fun t c => feats .gate t c / s3.val c
  | .up => fun t c => feats .up t c / s3.val c
  | .down => fun t c => feats .down t c / s4.val c
  | n => feats n

theorem applyScale_llama (L : LlamaLayer K) {d e f : ℕ} (hL : L.Sizes d e f 1) (feats : LlamaName → ℕ → ℕ → K) {s1 s2 s3 s4 : Scales K}
    (h1 : s1.len = d) (h2 : s2.len = e) (h3 : s3.len = d) (h4 : s4.len = f) :
    applyScale L.ops feats (llamaScales s1 s2 s3 s4) = some ((L.scaled s1 s2 s3 s4).ops, llamaFeats feats s1 s2 s3 s4) := by
  obtain ⟨a1, a2, a3, a4, a5, a6, a7, a8, a9, a10, a11⟩ := hL
  rw [Nat.one_mul] at a6
  simp [applyScale, llamaScales, applyEntry, mulLayers, divFeats, LlamaLayer.ops, a1, a2, a3, a4, a5, a6, a7, a8, a9, a10, a11, h1, h2, h3, h4,
    Function.update, Linear.mulIn, Linear.divOut]
  refine ⟨?_, ?_⟩
  · funext n
    cases n <;> simp [LlamaLayer.ops, LlamaLayer.scaled, Linear.mulIn, Linear.divOut, a1, a2, a3, a4, a5, a6, a7, a8, a9, a10, a11]
  · funext n
    cases n <;> simp [llamaFeats]

/-! ## Theorems -/

/-- **C80, OPT.**  For every OPT decoder layer that normalises first, whatever its attention weights, and with an activation that commutes with
multiplication by positive numbers, applying any positive scales of the right lengths leaves the output of the layer what it was, for every
sequence; and the recorded inputs become the inputs of the layers after scaling. -/
theorem C80_opt_partial [LinearOrder K] [IsStrictOrderedRing K] (L : OptLayer K) {d e f : ℕ} (hL : L.Sizes d e f) (A : Attention K) (hA : A.groups = 1)
    (act : K → K) (hact : ∀ a x, 0 < a → act (x / a) = act x / a) {s1 s2 s3 s4 : Scales K} (h1 : s1.len = d) (h2 : s2.len = e)
    (h3 : s3.len = d) (h4 : s4.len = f) (p1 : ∀ i < d, 0 < s1.val i) (p2 : ∀ i < e, 0 < s2.val i) (p3 : ∀ i < d, 0 < s3.val i)
    (p4 : ∀ i < f, 0 < s4.val i) (T : ℕ) (x : ℕ → ℕ → K) :
    ∃ ops' feats', applyScale L.ops (optRows A act true T L.ops x).input (optScales s1 s2 s3 s4) = some (ops', feats') ∧
      (optRows A act true T ops' x).output = (optRows A act true T L.ops x).output ∧
      (∀ t, ∀ i < d, ∀ n ∈ [OptName.q, .k, .v, .fc1], feats' n t i = (optRows A act true T ops' x).input n t i) ∧
      (∀ t, ∀ i < e, feats' .out t i = (optRows A act true T ops' x).input .out t i) ∧
      (∀ t, ∀ i < f, feats' .fc2 t i = (optRows A act true T ops' x).input .fc2 t i) := by
  refine ⟨_, _, applyScale_opt L hL _ h1 h2 h3 h4, ?_⟩
  obtain ⟨a1, a2, a3, a4, a5, a6, a7, a8, a9, a10⟩ := hL
  have n1 : ∀ t c, (optRows A act true T (L.scaled s1 s2 s3 s4).ops x).normed t c = (optRows A act true T L.ops x).normed t c / s1.val c :=
    fun t c => opRow_norm_div _ _ _ _
  have lin : ∀ {l : Linear K} {s : Scales K} {n : ℕ} {y z : ℕ → K}, l.inFeatures = n → (∀ i < n, 0 < s.val i) → (∀ i, y i = z i / s.val i) →
      opRow (.linear (l.mulIn s)) y = opRow (.linear l) z := by
    intro l s n y z hn hp hy
    funext o
    exact opRow_mulIn l s (fun i hi => (hp i (hn ▸ hi)).ne') (fun i _ => hy i) o
  have ctx : ∀ t c, (optRows A act true T (L.scaled s1 s2 s3 s4).ops x).context t c = (optRows A act true T L.ops x).context t c / s2.val c := by
    intro t c
    show A.heads T (fun t => opRow (.linear (L.q.mulIn s1)) ((optRows A act true T (L.scaled s1 s2 s3 s4).ops x).normed t)) (fun t => opRow (.linear (L.k.mulIn s1)) ((optRows A act true T (L.scaled s1 s2 s3 s4).ops x).normed t))
      (fun t => opRow (.linear ((L.v.mulIn s1).divOut s2)) ((optRows A act true T (L.scaled s1 s2 s3 s4).ops x).normed t)) t c = _
    rw [show (fun t => opRow (.linear (L.q.mulIn s1)) ((optRows A act true T (L.scaled s1 s2 s3 s4).ops x).normed t)) =
        fun t => opRow (.linear L.q) ((optRows A act true T L.ops x).normed t) from funext fun t => lin a2 p1 (n1 t),
      show (fun t => opRow (.linear (L.k.mulIn s1)) ((optRows A act true T (L.scaled s1 s2 s3 s4).ops x).normed t)) =
        fun t => opRow (.linear L.k) ((optRows A act true T L.ops x).normed t) from funext fun t => lin a3 p1 (n1 t)]
    refine heads_div A hA T _ _ _ _ s2 ?_ t c
    intro t o
    rw [opRow_divOut]
    exact congrArg (· / _) (congrFun (lin a4 p1 (n1 t)) o)
  have hid : (optRows A act true T (L.scaled s1 s2 s3 s4).ops x).hidden = (optRows A act true T L.ops x).hidden := by
    funext t c
    show x t c + opRow (.linear (L.out.mulIn s2)) _ c = x t c + opRow (.linear L.out) _ c
    exact congrArg (x t c + ·) (congrFun (lin a6 p2 (ctx t)) c)
  have n2 : ∀ t c, (optRows A act true T (L.scaled s1 s2 s3 s4).ops x).normed2 t c = (optRows A act true T L.ops x).normed2 t c / s3.val c := by
    intro t c
    show opRow (.norm (L.finalNorm.div s3)) ((optRows A act true T (L.scaled s1 s2 s3 s4).ops x).hidden t) c = _
    rw [opRow_norm_div, hid]
    rfl
  have ac : ∀ t, ∀ j < f, (optRows A act true T (L.scaled s1 s2 s3 s4).ops x).activated t j = (optRows A act true T L.ops x).activated t j / s4.val j := by
    intro t j hj
    show act (opRow (.linear ((L.fc1.mulIn s3).divOut s4)) ((optRows A act true T (L.scaled s1 s2 s3 s4).ops x).normed2 t) j) = act (opRow (.linear L.fc1) ((optRows A act true T L.ops x).normed2 t) j) / _
    rw [opRow_divOut, lin a8 p3 (n2 t), hact _ _ (p4 j hj)]
  refine ⟨?_, ?_, ?_, ?_⟩
  · funext t c
    show (optRows A act true T (L.scaled s1 s2 s3 s4).ops x).hidden t c + opRow (.linear (L.fc2.mulIn s4)) _ c =
      (optRows A act true T L.ops x).hidden t c + opRow (.linear L.fc2) _ c
    rw [hid]
    exact congrArg (_ + ·) (opRow_mulIn _ _ (fun i hi => (p4 i (a10 ▸ hi)).ne') (fun i hi => ac t i (a10 ▸ hi)) c)
  · intro t i _ n hn
    simp only [List.mem_cons, List.not_mem_nil, or_false] at hn
    rcases hn with rfl | rfl | rfl | rfl
    · exact (n1 t i).symm
    · exact (n1 t i).symm
    · exact (n1 t i).symm
    · exact (n2 t i).symm
  · intro t i _
    exact (ctx t i).symm
  · intro t i hi
    exact (ac t i hi).symm

/-- The activation of OPT commutes with multiplication by positive numbers. -/
theorem relu_div [LinearOrder K] [IsStrictOrderedRing K] (a x : K) (ha : 0 < a) : max (x / a) 0 = max x 0 / a := by
  rcases le_total x 0 with h | h
  · rw [max_eq_right h, max_eq_right (div_nonpos_of_nonpos_of_nonneg h ha.le), zero_div]
  · rw [max_eq_left h, max_eq_left (div_nonneg h ha.le)]

/-- Two positions of two features, attention weights that depend on queries and keys, different scales everywhere. -/
example : ∃ ops' feats', applyScale (⟨⟨2, fun x c => x c - (x 0 + x 1) / 2, fun c => c + 1, some fun _ => 1⟩, ⟨2, 2, fun o i => o + i, none⟩,
      ⟨2, 2, fun o i => o * i + 1, none⟩, ⟨2, 2, fun o i => o + 2 * i, some fun _ => 3⟩, ⟨2, 2, fun o i => o + i + 1, none⟩,
      ⟨2, fun x c => x c - (x 0 + x 1) / 2, fun _ => 2, none⟩, ⟨3, 2, fun o i => o - i, some fun o => o⟩, ⟨2, 3, fun o i => o + i, none⟩⟩ : OptLayer ℚ).ops
      (fun _ _ _ => 0) (optScales ⟨2, fun i => i + 1⟩ ⟨2, fun i => i + 2⟩ ⟨2, fun i => 3 * i + 1⟩ ⟨3, fun i => i + 1⟩) = some (ops', feats') ∧
    (optRows (K := ℚ) ⟨fun q k h t s => q t h * k s 0 + h + t, 1, 1⟩ (fun x => max x 0) true 2 ops' (fun t c => t + 2 * c)).output 1 0 = 1141 := by
  refine ⟨_, _, rfl, ?_⟩
  decide +kernel

/-- **C80, Llama.**  The same for every Llama decoder layer, with any activation of the gate, if no heads share keys and values; the scales may be any
numbers but zero. -/
theorem C80_llama (L : LlamaLayer K) {d e f : ℕ} (A : Attention K) (hA : A.groups = 1) (hL : L.Sizes d e f A.groups)
    (act : K → K) {s1 s2 s3 s4 : Scales K} (h1 : s1.len = d) (h2 : s2.len = e)
    (h3 : s3.len = d) (h4 : s4.len = f) (p1 : ∀ i < d, s1.val i ≠ 0) (p2 : ∀ i < e, s2.val i ≠ 0) (p3 : ∀ i < d, s3.val i ≠ 0)
    (p4 : ∀ i < f, s4.val i ≠ 0) (T : ℕ) (x : ℕ → ℕ → K) :
    ∃ ops' feats', applyScale L.ops (llamaRows A act T L.ops x).input (llamaScales s1 s2 s3 s4) = some (ops', feats') ∧
      (llamaRows A act T ops' x).output = (llamaRows A act T L.ops x).output ∧
      ∀ n ∈ [LlamaName.q, .k, .v, .o, .gate, .up, .down], feats' n = (llamaRows A act T ops' x).input n := by
  rw [hA] at hL
  refine ⟨_, _, applyScale_llama L hL _ h1 h2 h3 h4, ?_⟩
  obtain ⟨a1, a2, a3, a4, a5, a6, a7, a8, a9, a10, a11⟩ := hL
  rw [Nat.one_mul] at a6
  have n1 : ∀ t c, (llamaRows A act T (L.scaled s1 s2 s3 s4).ops x).normed t c = (llamaRows A act T L.ops x).normed t c / s1.val c :=
    fun t c => opRow_norm_div _ _ _ _
  have lin : ∀ {l : Linear K} {s : Scales K} {n : ℕ} {y z : ℕ → K}, l.inFeatures = n → (∀ i < n, s.val i ≠ 0) → (∀ i, y i = z i / s.val i) →
      opRow (.linear (l.mulIn s)) y = opRow (.linear l) z := by
    intro l s n y z hn hp hy
    funext o
    exact opRow_mulIn l s (fun i hi => hp i (hn ▸ hi)) (fun i _ => hy i) o
  have ctx : ∀ t c, (llamaRows A act T (L.scaled s1 s2 s3 s4).ops x).context t c = (llamaRows A act T L.ops x).context t c / s2.val c := by
    intro t c
    show A.heads T (fun t => opRow (.linear (L.q.mulIn s1)) ((llamaRows A act T (L.scaled s1 s2 s3 s4).ops x).normed t)) (fun t => opRow (.linear (L.k.mulIn s1)) ((llamaRows A act T (L.scaled s1 s2 s3 s4).ops x).normed t))
      (fun t => opRow (.linear ((L.v.mulIn s1).divOut s2)) ((llamaRows A act T (L.scaled s1 s2 s3 s4).ops x).normed t)) t c = _
    rw [show (fun t => opRow (.linear (L.q.mulIn s1)) ((llamaRows A act T (L.scaled s1 s2 s3 s4).ops x).normed t)) =
        fun t => opRow (.linear L.q) ((llamaRows A act T L.ops x).normed t) from funext fun t => lin a2 p1 (n1 t),
      show (fun t => opRow (.linear (L.k.mulIn s1)) ((llamaRows A act T (L.scaled s1 s2 s3 s4).ops x).normed t)) =
        fun t => opRow (.linear L.k) ((llamaRows A act T L.ops x).normed t) from funext fun t => lin a3 p1 (n1 t)]
    refine heads_div A hA T _ _ _ _ s2 ?_ t c
    intro t o
    rw [opRow_divOut]
    exact congrArg (· / _) (congrFun (lin a4 p1 (n1 t)) o)
  have hid : ∀ t, (fun c => x t c + opRow (.linear (L.o.mulIn s2)) ((llamaRows A act T (L.scaled s1 s2 s3 s4).ops x).context t) c) =
      fun c => x t c + opRow (.linear L.o) ((llamaRows A act T L.ops x).context t) c := by
    intro t
    funext c
    exact congrArg (x t c + ·) (congrFun (lin a6 p2 (ctx t)) c)
  have n2 : ∀ t c, (llamaRows A act T (L.scaled s1 s2 s3 s4).ops x).normed2 t c = (llamaRows A act T L.ops x).normed2 t c / s3.val c := by
    intro t c
    show opRow (.norm (L.postNorm.div s3)) (fun c => x t c + opRow (.linear (L.o.mulIn s2)) ((llamaRows A act T (L.scaled s1 s2 s3 s4).ops x).context t) c) c = _
    rw [opRow_norm_div, hid]
    rfl
  have ac : ∀ t j, (llamaRows A act T (L.scaled s1 s2 s3 s4).ops x).gated t j = (llamaRows A act T L.ops x).gated t j / s4.val j := by
    intro t j
    show act (opRow (.linear (L.gate.mulIn s3)) ((llamaRows A act T (L.scaled s1 s2 s3 s4).ops x).normed2 t) j) * opRow (.linear ((L.up.mulIn s3).divOut s4)) ((llamaRows A act T (L.scaled s1 s2 s3 s4).ops x).normed2 t) j =
      act (opRow (.linear L.gate) ((llamaRows A act T L.ops x).normed2 t) j) * opRow (.linear L.up) ((llamaRows A act T L.ops x).normed2 t) j / _
    rw [opRow_divOut, lin a8 p3 (n2 t), lin a9 p3 (n2 t), mul_div_assoc]
  refine ⟨?_, ?_⟩
  · funext t c
    show x t c + opRow (.linear (L.o.mulIn s2)) ((llamaRows A act T (L.scaled s1 s2 s3 s4).ops x).context t) c +
        opRow (.linear (L.down.mulIn s4)) ((llamaRows A act T (L.scaled s1 s2 s3 s4).ops x).gated t) c =
      x t c + opRow (.linear L.o) ((llamaRows A act T L.ops x).context t) c + opRow (.linear L.down) ((llamaRows A act T L.ops x).gated t) c
    rw [congrFun (hid t) c, lin a11 p4 (ac t)]
  · intro n hn
    simp only [List.mem_cons, List.not_mem_nil, or_false] at hn
    rcases hn with rfl | rfl | rfl | rfl | rfl | rfl | rfl
    · funext t i; exact (n1 t i).symm
    · funext t i; exact (n1 t i).symm
    · funext t i; exact (n1 t i).symm
    · funext t i; exact (ctx t i).symm
    · funext t i; exact (n2 t i).symm
    · funext t i; exact (n2 t i).symm
    · funext t i; exact (ac t i).symm

example : ∃ ops' feats', applyScale (⟨⟨2, fun x c => x c - (x 0 + x 1) / 2, fun c => c + 1, none⟩, ⟨2, 2, fun o i => o + i, none⟩,
      ⟨2, 2, fun o i => o * i + 1, none⟩, ⟨2, 2, fun o i => o + 2 * i, none⟩, ⟨2, 2, fun o i => o + i + 1, none⟩,
      ⟨2, fun x c => x c - (x 0 + x 1) / 2, fun _ => 2, none⟩, ⟨3, 2, fun o i => o - i, none⟩, ⟨3, 2, fun o i => o * i, none⟩,
      ⟨2, 3, fun o i => o + i, none⟩⟩ : LlamaLayer ℚ).ops
      (fun _ _ _ => 0) (llamaScales ⟨2, fun i => i + 1⟩ ⟨2, fun i => i + 2⟩ ⟨2, fun i => -3 * i - 1⟩ ⟨3, fun i => i + 1⟩) = some (ops', feats') ∧
    (llamaRows (K := ℚ) ⟨fun q k h t s => q t h * k s 0 + h + t, 1, 1⟩ (fun x => max x 0) 2 ops' (fun t c => t + 2 * c)).output 1 0 = 125 := by
  refine ⟨_, _, rfl, ?_⟩
  decide +kernel

/-- **C80, disagreement.**  Llama layers in which several heads share keys and values cannot be scaled: an assertion fails, whatever the scales. -/
theorem C80_grouped_heads_raise (L : LlamaLayer K) {d e f groups : ℕ} (hL : L.Sizes d e f groups) (he : 0 < e) (hg : groups ≠ 1)
    (feats : LlamaName → ℕ → ℕ → K) (s1 s2 s3 s4 : Scales K) : applyScale L.ops feats (llamaScales s1 s2 s3 s4) = none := by
  obtain ⟨a1, a2, a3, a4, a5, a6, a7, a8, a9, a10, a11⟩ := hL
  have hne : e ≠ groups * e := by
    intro h
    exact hg (Nat.eq_of_mul_eq_mul_right he (by rw [Nat.one_mul]; exact h.symm))
  by_cases h1 : d = s1.len
  · simp [applyScale, llamaScales, applyEntry, mulLayers, LlamaLayer.ops, Function.update, Linear.mulIn, a1, a2, a3, a4, a5, a6, hne, h1]
  · simp [applyScale, llamaScales, applyEntry, LlamaLayer.ops, a1, h1]

end

/-! ## Layers that normalise last -/

/-- `nn.LayerNorm` of two features with `eps = 0`. -/
noncomputable def layerNorm2 (x : ℕ → ℝ) (c : ℕ) : ℝ :=
  (x c - (x 0 + x 1) / 2) / Real.sqrt (((x 0 - (x 0 + x 1) / 2) ^ 2 + (x 1 - (x 0 + x 1) / 2) ^ 2) / 2)

/-- A layer of two features without attention and with a constant in place of the inner layers. -/
noncomputable def lateLayer : OptLayer ℝ where
  attnNorm := ⟨2, layerNorm2, fun _ => 1, some fun _ => 0⟩
  q := ⟨2, 2, fun _ _ => 0, none⟩
  k := ⟨2, 2, fun _ _ => 0, none⟩
  v := ⟨2, 2, fun _ _ => 0, none⟩
  out := ⟨2, 2, fun _ _ => 0, none⟩
  finalNorm := ⟨2, layerNorm2, fun _ => 1, some fun _ => 0⟩
  fc1 := ⟨2, 2, fun _ _ => 0, none⟩
  fc2 := ⟨2, 2, fun _ _ => 0, some fun c => if c = 1 then 7 / 4 else 0⟩

theorem layerNorm2_eq (x : ℕ → ℝ) (h : x 1 < x 0) : layerNorm2 x 0 = 1 ∧ layerNorm2 x 1 = -1 := by
  have e : ((x 0 - (x 0 + x 1) / 2) ^ 2 + (x 1 - (x 0 + x 1) / 2) ^ 2) / 2 = ((x 0 - x 1) / 2) ^ 2 := by ring
  have hp : 0 < (x 0 - x 1) / 2 := by linarith
  unfold layerNorm2
  rw [e, Real.sqrt_sq hp.le]
  constructor
  · rw [div_eq_one_iff_eq hp.ne']; ring
  · rw [div_eq_iff hp.ne']; ring

theorem layerNorm2_eq' (x : ℕ → ℝ) (h : x 0 < x 1) : layerNorm2 x 0 = -1 := by
  have e : ((x 0 - (x 0 + x 1) / 2) ^ 2 + (x 1 - (x 0 + x 1) / 2) ^ 2) / 2 = ((x 1 - x 0) / 2) ^ 2 := by ring
  have hp : 0 < (x 1 - x 0) / 2 := by linarith
  unfold layerNorm2
  rw [e, Real.sqrt_sq hp.le, div_eq_iff hp.ne']; ring

/-- **C80, disagreement.**  The same scales are applied to OPT layers that normalise last (`do_layer_norm_before=False`, as in OPT-350m), in which the norm comes after
the layers it is scaled with: the output of this layer changes from 1 to -1. -/
theorem C80_norm_last (A : Attention ℝ) (act : ℝ → ℝ) : ∃ ops' feats',
    applyScale lateLayer.ops (fun _ _ _ => 0) (optScales ⟨2, fun _ => 2⟩ ⟨2, fun _ => 1⟩ ⟨2, fun _ => 1⟩ ⟨2, fun _ => 1⟩) = some (ops', feats') ∧
    (optRows A act false 1 lateLayer.ops (fun _ c => if c = 0 then 1 else -1)).output 0 0 = 1 ∧
    (optRows A act false 1 ops' (fun _ c => if c = 0 then 1 else -1)).output 0 0 = -1 := by
  refine ⟨_, _, applyScale_opt lateLayer (d := 2) (e := 2) (f := 2) ⟨rfl, rfl, rfl, rfl, rfl, rfl, rfl, rfl, rfl, rfl⟩ _ rfl rfl rfl rfl, ?_, ?_⟩
  · have z : ∀ (x : ℕ → ℝ) o, opRow (lateLayer.ops .out) x o = 0 := by intro x o; simp [opRow, OptLayer.ops, lateLayer]
    have f2 : ∀ (x : ℕ → ℝ) o, opRow (lateLayer.ops .fc2) x o = if o = 1 then 7 / 4 else 0 := by
      intro x o; simp [opRow, OptLayer.ops, lateLayer]
    have nm : ∀ (n) (x : ℕ → ℝ) c, n = OptName.attnNorm ∨ n = .finalNorm → opRow (lateLayer.ops n) x c = layerNorm2 x c := by
      rintro n x c (rfl | rfl) <;> simp [opRow, OptLayer.ops, lateLayer]
    have hh : ∀ c, (optRows A act false 1 lateLayer.ops (fun _ c => if c = 0 then 1 else -1)).hidden 0 c = layerNorm2 (fun c => if c = 0 then 1 else -1) c := by
      intro c
      show opRow (lateLayer.ops .attnNorm) _ c = _
      rw [nm _ _ _ (Or.inl rfl)]
      congr 1
      funext c
      show (if c = 0 then (1 : ℝ) else -1) + opRow (lateLayer.ops .out) _ c = _
      rw [z, add_zero]
    have e1 := layerNorm2_eq (fun c => if c = 0 then 1 else -1) (by norm_num)
    show opRow (lateLayer.ops .finalNorm) (fun c => (optRows A act false 1 lateLayer.ops (fun _ c => if c = 0 then 1 else -1)).hidden 0 c +
      opRow (lateLayer.ops .fc2) _ c) 0 = 1
    rw [nm _ _ _ (Or.inr rfl)]
    refine (layerNorm2_eq _ ?_).1
    show _ + opRow (lateLayer.ops .fc2) _ 1 < _ + opRow (lateLayer.ops .fc2) _ 0
    rw [hh, hh, f2, f2, e1.1, e1.2]
    norm_num
  · have z : ∀ (x : ℕ → ℝ) o, opRow ((lateLayer.scaled ⟨2, fun _ => 2⟩ ⟨2, fun _ => 1⟩ ⟨2, fun _ => 1⟩ ⟨2, fun _ => 1⟩).ops .out) x o = 0 := by
      intro x o; simp [opRow, OptLayer.ops, lateLayer, OptLayer.scaled, Linear.mulIn]
    have f2 : ∀ (x : ℕ → ℝ) o, opRow ((lateLayer.scaled ⟨2, fun _ => 2⟩ ⟨2, fun _ => 1⟩ ⟨2, fun _ => 1⟩ ⟨2, fun _ => 1⟩).ops .fc2) x o = if o = 1 then 7 / 4 else 0 := by
      intro x o; simp [opRow, OptLayer.ops, lateLayer, OptLayer.scaled, Linear.mulIn]
    have n1 : ∀ (x : ℕ → ℝ) c, opRow ((lateLayer.scaled ⟨2, fun _ => 2⟩ ⟨2, fun _ => 1⟩ ⟨2, fun _ => 1⟩ ⟨2, fun _ => 1⟩).ops .attnNorm) x c = layerNorm2 x c / 2 := by
      intro x c; simp [opRow, OptLayer.ops, lateLayer, OptLayer.scaled, Norm.div, div_eq_mul_inv]
    have n2 : ∀ (x : ℕ → ℝ) c, opRow ((lateLayer.scaled ⟨2, fun _ => 2⟩ ⟨2, fun _ => 1⟩ ⟨2, fun _ => 1⟩ ⟨2, fun _ => 1⟩).ops .finalNorm) x c = layerNorm2 x c := by
      intro x c; simp [opRow, OptLayer.ops, lateLayer, OptLayer.scaled, Norm.div]
    have hh : ∀ c, (optRows A act false 1 (lateLayer.scaled ⟨2, fun _ => 2⟩ ⟨2, fun _ => 1⟩ ⟨2, fun _ => 1⟩ ⟨2, fun _ => 1⟩).ops
        (fun _ c => if c = 0 then 1 else -1)).hidden 0 c = layerNorm2 (fun c => if c = 0 then 1 else -1) c / 2 := by
      intro c
      show opRow ((lateLayer.scaled ⟨2, fun _ => 2⟩ ⟨2, fun _ => 1⟩ ⟨2, fun _ => 1⟩ ⟨2, fun _ => 1⟩).ops .attnNorm) _ c = _
      rw [n1]
      congr 2
      funext c
      show (if c = 0 then (1 : ℝ) else -1) + opRow ((lateLayer.scaled ⟨2, fun _ => 2⟩ ⟨2, fun _ => 1⟩ ⟨2, fun _ => 1⟩ ⟨2, fun _ => 1⟩).ops .out) _ c = _
      rw [z, add_zero]
    have e1 := layerNorm2_eq (fun c => if c = 0 then 1 else -1) (by norm_num)
    show opRow ((lateLayer.scaled ⟨2, fun _ => 2⟩ ⟨2, fun _ => 1⟩ ⟨2, fun _ => 1⟩ ⟨2, fun _ => 1⟩).ops .finalNorm)
      (fun c => (optRows A act false 1 (lateLayer.scaled ⟨2, fun _ => 2⟩ ⟨2, fun _ => 1⟩ ⟨2, fun _ => 1⟩ ⟨2, fun _ => 1⟩).ops
        (fun _ c => if c = 0 then 1 else -1)).hidden 0 c +
      opRow ((lateLayer.scaled ⟨2, fun _ => 2⟩ ⟨2, fun _ => 1⟩ ⟨2, fun _ => 1⟩ ⟨2, fun _ => 1⟩).ops .fc2) _ c) 0 = -1
    rw [n2]
    refine layerNorm2_eq' _ ?_
    show _ + opRow (Op.linear _) _ 0 < _ + opRow (Op.linear _) _ 1
    have g := f2
    rw [hh, hh, e1.1, e1.2]
    have g0 := f2 ((optRows A act false 1 (lateLayer.scaled ⟨2, fun _ => 2⟩ ⟨2, fun _ => 1⟩ ⟨2, fun _ => 1⟩ ⟨2, fun _ => 1⟩).ops
        (fun _ c => if c = 0 then 1 else -1)).activated 0)
    have := g0 0
    have := g0 1
    show 1 / 2 + opRow ((lateLayer.scaled ⟨2, fun _ => 2⟩ ⟨2, fun _ => 1⟩ ⟨2, fun _ => 1⟩ ⟨2, fun _ => 1⟩).ops .fc2) _ 0 <
      -1 / 2 + opRow ((lateLayer.scaled ⟨2, fun _ => 2⟩ ⟨2, fun _ => 1⟩ ⟨2, fun _ => 1⟩ ⟨2, fun _ => 1⟩).ops .fc2) _ 1
    rw [f2, f2]
    norm_num

end Brevitas.Awq
