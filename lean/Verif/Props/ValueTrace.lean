import Mathlib.Data.Int.Notation
import Verif.Lemmas.ValueTrace

/-!
# C115: graphs recorded by `value_trace` compute the model
-/

namespace Brevitas.Props

open Brevitas.ValueTrace

section Generic

variable {Op Q A V σ : Type*} [DecidableEq V] {S : Sem Op Q A V σ} {frames : ℕ} {sig : List (Param V)} {p : Prog Op Q A V} {values : List (String × V)} {s0 : σ} {r : Result Op A V σ}

/-- The signature of the graph: the parameters of the model that were given a value or do not default to `None`. -/
theorem C115_signature (h : valueTrace S frames sig p values s0 = some r) : ∀ q ∈ sig, (values.lookup q.name ≠ none ∨ q.default ≠ some S.none) → .placeholder q.name q.default ∈ r.graph.nodes := by
  intro q hq hc
  simp only [valueTrace, Option.map_eq_some_iff] at h
  obtain ⟨⟨t, as, path, un⟩, ht, rfl⟩ := h
  exact (trace_nodes frames p ht).subset ((placeholders_mem (A := A) sig).2 q hq hc)

/-- On every input and in every state in which the code of the model goes the way it went while it was traced, the graph returns the same objects and leaves the same state. -/
theorem C115_same_path (h : valueTrace S frames sig p values s0 = some r) (hattr : StableAttributes S) (hun : ∀ u ∈ r.unrecorded, Constant S u) (haug : p.Calls (PlainAugmented S))
    {args : List (String × V)} (hargs : ∀ a ∈ args, ∃ q ∈ sig, q.name = a.1 ∧ (values.lookup q.name ≠ none ∨ q.default ≠ some S.none)) {s s' : σ} {out : List V}
    (hm : runModel S sig p args s = some (out, s', r.path)) : r.graph.run S args s = some (out, s') := by
  have hsig := C115_signature h
  simp only [valueTrace, Option.map_eq_some_iff] at h
  obtain ⟨⟨t, as, path, un⟩, ht, rfl⟩ := h
  simp only [runModel, bindArgs, Option.bind_eq_some_iff, Option.map_eq_some_iff, Prod.mk.injEq] at hm
  obtain ⟨_, ⟨vs, hvs, rfl⟩, ⟨out', s1, path'⟩, hx, rfl, rfl, hp⟩ := hm
  simp only at hp hx hsig hun
  have hlen : ∀ (ps : List (Param V)) (t0 : T Op V σ), (placeholders (A := A) S values ps t0).2.length = ps.length := by
    intro ps; induction ps with
    | nil => intro t0; rfl
    | cons q ps ih => intro t0; simp [placeholders, ih]
  have hvl : vs.length = sig.length := by
    clear hx hp
    induction sig generalizing vs with
    | nil => simp only [List.mapM_nil, Option.pure_def, Option.some.injEq] at hvs; simp [← hvs]
    | cons q sig ih =>
      rw [mapM_cons_iff] at hvs
      obtain ⟨b, bs, -, h2, rfl⟩ := hvs
      have : ∀ (l : List (Param V)) (bs : List V), l.mapM (Param.value args) = some bs → bs.length = l.length := by
        intro l; induction l with
        | nil => intro bs hb; simp only [List.mapM_nil, Option.pure_def, Option.some.injEq] at hb; simp [← hb]
        | cons c l ih => intro bs hb; rw [mapM_cons_iff] at hb; obtain ⟨b, bs', -, h3, rfl⟩ := hb; simp [ih bs' h3]
      simp [this sig bs h2]
  obtain ⟨hp1, hp2⟩ := List.append_inj hp (by rw [hlen]; simp [hvl])
  have hs0 : Sim S args s [] s (⟨[], [], [], [], s0⟩ : T Op V σ) [] := ⟨rfl, rfl, by simp, by simp⟩
  obtain ⟨nv, hs1⟩ := placeholders_sim (A := A) (values := values) sig hs0 hvs hp1.symm
  rw [← hp2] at ht
  obtain ⟨nv', h1, h2⟩ := trace_sim hattr frames p ht hs1 hx hun haug
  unfold Graph.run
  rw [if_pos]
  · simp only [h1, Option.bind_some, h2, Option.map_some]
  · refine List.all_eq_true.2 fun a ha => ?_
    obtain ⟨q, hq, hn, hc⟩ := hargs a ha
    exact List.any_eq_true.2 ⟨_, hsig q hq hc, by simp [Node.isPlaceholder, hn]⟩

/-- Tracing with a value for every parameter runs the model once on those values: it leaves the state that the model leaves and has gone by the same answers. -/
theorem C115_runs_model (h : valueTrace S frames sig p values s0 = some r) (hvals : ∀ q ∈ sig, (q.value values).isSome) (haug : p.Calls (PlainAugmented S)) :
    ∃ out, runModel S sig p values s0 = some (out, r.state, r.path) := by
  simp only [valueTrace, Option.map_eq_some_iff] at h
  obtain ⟨⟨t, as, path, un⟩, ht, rfl⟩ := h
  have hm : ∃ vs, sig.mapM (Param.value values) = some vs := by
    clear ht
    induction sig with
    | nil => exact ⟨[], rfl⟩
    | cons q sig ih =>
      obtain ⟨vs, hvs⟩ := ih fun q hq => hvals q (List.mem_cons_of_mem _ hq)
      obtain ⟨v, hv⟩ := Option.isSome_iff_exists.1 (hvals q List.mem_cons_self)
      exact ⟨v :: vs, mapM_cons_some hv hvs⟩
  obtain ⟨vs, hvs⟩ := hm
  have hv0 : Val S (⟨[], [], [], [], s0⟩ : T Op V σ) [] := ⟨rfl, by simp⟩
  obtain ⟨h1, h2, h3⟩ := placeholders_val (A := A) sig hv0 hvs
  obtain ⟨out, ho⟩ := trace_val frames p ht h1 haug
  rw [h3] at ho
  simp only [List.nil_append] at ho
  exact ⟨out, by simp only [runModel, bindArgs, hvs, Option.map_some, Option.bind_some, ho, h2]⟩

/-- So the graph, run on the traced values from the state before tracing, is the model. -/
theorem C115_traced_input (h : valueTrace S frames sig p values s0 = some r) (hvals : ∀ q ∈ sig, (q.value values).isSome) (hnames : ∀ a ∈ values, ∃ q ∈ sig, q.name = a.1)
    (hattr : StableAttributes S) (hun : ∀ u ∈ r.unrecorded, Constant S u) (haug : p.Calls (PlainAugmented S)) :
    ∃ out, runModel S sig p values s0 = some (out, r.state, r.path) ∧ r.graph.run S values s0 = some (out, r.state) := by
  obtain ⟨out, ho⟩ := C115_runs_model h hvals haug
  refine ⟨out, ho, C115_same_path h hattr hun haug (fun a ha => ?_) ho⟩
  obtain ⟨q, hq, hn⟩ := hnames a ha
  refine ⟨q, hq, hn, .inl ?_⟩
  rw [hn]
  intro hc
  rw [List.lookup_eq_none_iff] at hc
  simpa using hc a ha

/-- Tracing succeeds if the model runs on the values, its code can be traced given which values are not `None` (`Prog.Traceable`), and nothing it calls or reads gives `None`. -/
theorem C115_traces (frames : ℕ) (haug : p.Calls (PlainAugmented S)) {vs out : List V} {s' : σ} {path : List (Event A)} (hvs : sig.mapM (Param.value values) = some vs)
    (hx : exec S p vs s0 = some (out, s', path)) (hp : p.Traceable S (vs.map fun v => decide (v ≠ S.none))) (hn : .isNone true ∉ path) : ∃ r, valueTrace S frames sig p values s0 = some r := by
  have h0 : Good S [] (⟨[], [], [], [], s0⟩ : T Op V σ) [] := ⟨⟨rfl, by simp⟩, fun i root name v h => by simp at h, rfl, by simp⟩
  have h1 := placeholders_good (A := A) sig h0 hvs
  have h2 := (placeholders_val (A := A) sig h0.val hvs).2.2
  simp only [List.nil_append] at h1
  obtain ⟨r, hr⟩ := trace_some frames p (by rw [h2]; exact hx) h1 hp haug hn
  exact ⟨_, by simp only [valueTrace, hr, Option.map_some]; rfl⟩

/-- A leaf module whose `forward` calls a module cannot be traced with values: whatever the module, the input and the recursion limit. -/
theorem C115_leaf_with_submodules_false (S : Sem Op Q A V σ) (frames : ℕ) (op : Op) (next : Prog Op Q A V) (name : String) (v : V) (hv : v ≠ S.none) (s : σ) :
    valueTrace S frames [⟨name, none⟩] (.call ⟨.leaf true, op, [.ref 0], []⟩ next) [(name, v)] s = none := by
  have hsub : ∀ n vs s, submoduleCall S n op vs s = none := by
    intro n; induction n with
    | zero => intro vs s; rfl
    | succ n ih => intro vs s; exact ih vs s
  simp [valueTrace, placeholders, placeholder, T.emit, T.push, wrap, hv, trace, call, callLeaf, unpackArgs, Leaf.traceValue, Obj.value, hsub, recorded]

end Generic

/-! ### Samples -/

/-- Objects: `None`, numbers, and tensors of one element, which are cells of the state. -/
inductive TraceSample.Thing where
  | none
  | num (n : ℤ)
  | cell (i : ℕ)
  deriving DecidableEq

/-- Operations: a sum is a new tensor, `addTo` adds in place, `note` is a call for its effect that returns `None`. -/
inductive TraceSample.Action where
  | add | addTo | double | note
  deriving DecidableEq

/-- The number behind an object. -/
def TraceSample.Thing.read (s : List ℤ) : TraceSample.Thing → Option ℤ
  | .none => Option.none
  | .num n => some n
  | .cell i => s[i]?

/-- A small world: `x.data` reads a tensor, `x.ndim` is 1; "is it positive?" can be asked. Cell 0 is the parameter `w`, cell 1 the buffer `count`. -/
def TraceSample.world (dataAttribute : Bool) : Sem TraceSample.Action Unit Bool TraceSample.Thing (List ℤ) where
  run
    | .add, [x, y], s => (x.read s).bind fun a => (y.read s).map fun b => (.cell s.length, s ++ [a + b])
    | .addTo, [.cell i, y], s => s[i]?.bind fun a => (y.read s).map fun b => (.cell i, s.set i (a + b))
    | .double, [x], s => (x.read s).map fun a => (.cell s.length, s ++ [2 * a])
    | .note, [.cell i], s => s[i]?.map fun a => (.none, s.set i (a + 1))
    | _, _, _ => none
  augmented
    | .add => .addTo
    | o => o
  getattr name x s := match name, x with
    | "ndim", .cell _ => some (.num 1)
    | "data", .cell i => if dataAttribute then s[i]?.map .num else none
    | "grad", .cell _ => some .none
    | _, _ => none
  ask _ x s := (x.read s).map fun a => decide (0 < a)
  attr name := if name = "w" then .cell 0 else .cell 1
  none := .none
  isTensor x := match x with
    | .cell _ => true
    | _ => false

/-- `TraceSample.world false` has attributes that do not depend on the state. -/
theorem TraceSample.world_stable : StableAttributes (TraceSample.world false) := by
  intro name v s s'
  unfold TraceSample.world
  simp only [Bool.false_eq_true, if_false]

/-- `def forward(self, x, mask=None): y = x + self.w; if y > 0: y = double(y + x.ndim); if mask is not None: y = y + mask; return y`, without augmented assignments. -/
def TraceSample.branching : Prog TraceSample.Action Unit Bool TraceSample.Thing :=
  .param "w" <| .call ⟨.operator, .add, [.ref 0, .ref 2], []⟩ <| .ask () 3 fun
    | true => .getattr "ndim" 0 <| .call ⟨.operator, .add, [.ref 3, .ref 4], []⟩ <| .call ⟨.function, .double, [.ref 5], []⟩ <| .ifNone 1 fun
      | true => .ret [.ref 6] []
      | false => .call ⟨.operator, .add, [.ref 6, .ref 1], []⟩ <| .ret [.ref 7] []
    | false => .ret [.ref 3] []

def TraceSample.branchingSig : List (Param TraceSample.Thing) := [⟨"x", none⟩, ⟨"mask", some .none⟩]

/-- What is observed of a run: the numbers returned and the state. -/
def TraceSample.shown (r : Option (List TraceSample.Thing × List ℤ)) : Option (List (Option ℤ) × List ℤ) := r.map fun r => (r.1.map (TraceSample.Thing.read r.2), r.2)

/-- The graph that is recorded, run on other arguments and in another state. -/
def TraceSample.replay (S : Sem TraceSample.Action Unit Bool TraceSample.Thing (List ℤ)) (sig : List (Param TraceSample.Thing)) (p : Prog TraceSample.Action Unit Bool TraceSample.Thing) (values args : List (String × TraceSample.Thing))
    (s0 s : List ℤ) : Option (List (Option ℤ) × List ℤ) := (valueTrace S 1000 sig p values s0).bind fun r => TraceSample.shown (r.graph.run S args s)

/-- The model, on the same. -/
def TraceSample.direct (S : Sem TraceSample.Action Unit Bool TraceSample.Thing (List ℤ)) (sig : List (Param TraceSample.Thing)) (p : Prog TraceSample.Action Unit Bool TraceSample.Thing) (args : List (String × TraceSample.Thing))
    (s : List ℤ) : Option (List (Option ℤ) × List ℤ) := TraceSample.shown ((runModel S sig p args s).map fun r => (r.1, r.2.1))

/-- C115_same_path is not about nothing: traced on 3 with `w = 10`, replayed on 5 with `w = 2`. -/
example : TraceSample.replay (TraceSample.world false) TraceSample.branchingSig TraceSample.branching [("x", .cell 2)] [("x", .cell 2)] [10, 0, 3] [2, 0, 5] = some ([some 16], [2, 0, 5, 7, 8, 16]) ∧
    TraceSample.direct (TraceSample.world false) TraceSample.branchingSig TraceSample.branching [("x", .cell 2)] [2, 0, 5] = some ([some 16], [2, 0, 5, 7, 8, 16]) := by decide +kernel

example : TraceSample.branching.Calls (PlainAugmented (TraceSample.world false)) := by
  refine ⟨fun h => (nomatch h), fun a => ?_⟩
  cases a
  · trivial
  · refine ⟨fun h => (nomatch h), fun h => (nomatch h), fun b => ?_⟩
    cases b
    · exact ⟨fun h => (nomatch h), trivial⟩
    · trivial

/-- The paths agree, nothing is left unrecorded and the argument is in the signature. -/
example : (valueTrace (TraceSample.world false) 1000 TraceSample.branchingSig TraceSample.branching [("x", .cell 2)] [10, 0, 3]).map (fun r => (r.path, r.unrecorded)) =
      some ([.isNone false, .isNone true, .isNone false, .answer true, .isNone false, .isNone false, .isNone false], []) ∧
    (runModel (TraceSample.world false) TraceSample.branchingSig TraceSample.branching [("x", .cell 2)] [2, 0, 5]).map (fun r => r.2.2) =
      some [.isNone false, .isNone true, .isNone false, .answer true, .isNone false, .isNone false, .isNone false] ∧
    ∀ q ∈ TraceSample.branchingSig, (q.value [("x", TraceSample.Thing.cell 2)]).isSome := by decide +kernel

/-- The code of the sample can be traced with `x` only. -/
example : TraceSample.branching.Traceable (TraceSample.world false) [true, false] := by
  refine ⟨by decide, ⟨nofun, nofun, by decide, by decide, fun _ => .inl ⟨0, _, rfl, rfl⟩⟩, fun a => ?_⟩
  cases a
  · exact List.not_mem_nil
  · refine ⟨⟨nofun, nofun, by decide, by decide, fun _ => .inl ⟨3, _, rfl, rfl⟩⟩, ⟨nofun, nofun, by decide, by decide, by simp⟩, fun b => ?_⟩
    cases b
    · exact ⟨⟨nofun, nofun, by decide, by decide, fun _ => .inl ⟨6, _, rfl, rfl⟩⟩, List.not_mem_nil⟩
    · exact List.not_mem_nil

/-- The property claimed without its provisos: what is traced computes the model. -/
def Faithful (S : Sem TraceSample.Action Unit Bool TraceSample.Thing (List ℤ)) (sig : List (Param TraceSample.Thing)) (p : Prog TraceSample.Action Unit Bool TraceSample.Thing) (values args : List (String × TraceSample.Thing))
    (s0 s : List ℤ) : Prop := TraceSample.replay S sig p values args s0 s = TraceSample.direct S sig p args s

/-- On an input for which the code goes another way the graph still goes the traced one: silently wrong. -/
theorem C115_other_branch_false : ¬ ∀ args s, Faithful (TraceSample.world false) TraceSample.branchingSig TraceSample.branching [("x", .cell 2)] args [10, 0, 3] s := by
  intro h
  have : TraceSample.replay _ _ _ _ _ _ _ = TraceSample.direct _ _ _ _ _ := h [("x", .cell 2)] [-20, 0, 5]
  revert this; decide +kernel

/-- A parameter that defaults to `None` and was given no value is not in the signature of the graph: passing it raises, although the model takes it. -/
theorem C115_optional_argument_false : ∃ args s, (TraceSample.direct (TraceSample.world false) TraceSample.branchingSig TraceSample.branching args s).isSome ∧
    TraceSample.replay (TraceSample.world false) TraceSample.branchingSig TraceSample.branching [("x", .cell 2)] args [10, 0, 3] s = none :=
  ⟨[("x", .cell 2), ("mask", .cell 2)], [10, 0, 3], by decide +kernel⟩

/-- `d = x.data; x.add_(1); return x + d` with a number `d`. -/
def TraceSample.lateRead : Prog TraceSample.Action Unit Bool TraceSample.Thing :=
  .getattr "data" 0 <| .call ⟨.method, .addTo, [.ref 0, .const (.num 1)], []⟩ <| .call ⟨.operator, .add, [.ref 0, .ref 1], []⟩ <| .ret [.ref 3] []

/-- Attributes are read in the graph where they are first used, not where the model reads them: an update in between is seen. The graph is wrong on the very input that was traced. -/
theorem C115_late_attribute_false : ¬ ∀ x s, Faithful (TraceSample.world true) [⟨"x", none⟩] TraceSample.lateRead [("x", x)] [("x", x)] s s := by
  intro h
  have : TraceSample.replay _ _ _ _ _ _ _ = TraceSample.direct _ _ _ _ _ := h (.cell 2) [10, 0, 3]
  revert this; decide +kernel

/-- `self.count.add_(1); return x + self.count`. -/
def TraceSample.counting : Prog TraceSample.Action Unit Bool TraceSample.Thing :=
  .buffer "count" <| .call ⟨.method, .addTo, [.ref 1, .const (.num 1)], []⟩ <| .call ⟨.function, .add, [.ref 0, .ref 1], []⟩ <| .ret [.ref 3] []

/-- Updates of buffers without traced arguments happen once, while tracing, and are not in the graph. -/
theorem C115_buffer_update_false : ¬ ∀ x s, Faithful (TraceSample.world false) [⟨"x", none⟩] TraceSample.counting [("x", x)] [("x", x)] s s := by
  intro h
  have : TraceSample.replay _ _ _ _ _ _ _ = TraceSample.direct _ _ _ _ _ := h (.cell 2) [10, 0, 3]
  revert this; decide +kernel

/-- Tracing it has run the update. -/
example : (valueTrace (TraceSample.world false) 1000 [⟨"x", none⟩] TraceSample.counting [("x", .cell 2)] [10, 0, 3]).map (fun r => r.state) = some [10, 1, 3, 4] := by decide +kernel

/-- `y = x; y += 1; return x`. -/
def TraceSample.augmented : Prog TraceSample.Action Unit Bool TraceSample.Thing := .call ⟨.augmented, .add, [.ref 0, .const (.num 1)], []⟩ <| .ret [.ref 0, .ref 1] []

/-- An augmented assignment of a tensor is recorded as the operator: what else refers to the tensor is not updated. -/
theorem C115_augmented_assignment_false : ¬ ∀ x s, Faithful (TraceSample.world false) [⟨"x", none⟩] TraceSample.augmented [("x", x)] [("x", x)] s s := by
  intro h
  have : TraceSample.replay _ _ _ _ _ _ _ = TraceSample.direct _ _ _ _ _ := h (.cell 2) [10, 0, 3]
  revert this; decide +kernel

/-- `return self.count + x` with a buffer, `return torch.cat(x)` without `dim`, and an argument in a named tuple: the model runs, tracing with a value raises. -/
theorem C115_tracing_raises_false :
    ∀ p ∈ [Prog.buffer "count" <| .call ⟨.operator, .add, [.ref 1, .ref 0], []⟩ <| .ret [.ref 2] [], .call ⟨.concat false, .double, [.ref 0], [.list]⟩ <| .ret [.ref 1] [],
        .call ⟨.function, .double, [.ref 0], [.namedTuple]⟩ <| .ret [.ref 1] []],
      ((runModel (TraceSample.world false) [⟨"x", none⟩] p [("x", .cell 2)] [10, 0, 3]).isSome ∧ valueTrace (TraceSample.world false) 1000 [⟨"x", none⟩] p [("x", .cell 2)] [10, 0, 3] = none) := by
  intro p hp
  simp only [List.mem_cons, List.not_mem_nil, or_false] at hp
  have key : ∀ p : Prog TraceSample.Action Unit Bool TraceSample.Thing, (valueTrace (TraceSample.world false) 1000 [⟨"x", none⟩] p [("x", .cell 2)] [10, 0, 3]).isSome = false →
      valueTrace (TraceSample.world false) 1000 [⟨"x", none⟩] p [("x", .cell 2)] [10, 0, 3] = none := fun p h => by simpa using h
  rcases hp with rfl | rfl | rfl
  · exact ⟨by decide +kernel, key _ (by decide +kernel)⟩
  · exact ⟨by decide +kernel, key _ (by decide +kernel)⟩
  · exact ⟨by decide +kernel, key _ (by decide +kernel)⟩

/-- The hypotheses of `C115_leaf_with_submodules_false`. -/
example : TraceSample.Thing.cell 2 ≠ (TraceSample.world false).none := by decide

end Brevitas.Props
