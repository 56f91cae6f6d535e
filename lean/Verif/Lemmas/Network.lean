import Verif.Spec.Network
import Mathlib.Tactic.Ring
import Mathlib.Data.List.GetD
import Mathlib.Tactic.Linarith
import Mathlib.Algebra.Order.Field.Basic
import Mathlib.Algebra.BigOperators.Group.List.Lemmas

/-!
Rescaling the weights of a network consistently leaves what it computes unchanged.
-/

set_option linter.unusedSectionVars false

namespace Brevitas.Net

variable {K : Type*} [Field K] [LinearOrder K] [IsStrictOrderedRing K] [FloorRing K]

/-- `L'` is `L` for inputs divided by `lin` and outputs divided by `lout`, channel by channel. -/
structure Rescaled (L L' : Layer K) (lin lout : ℕ → K) : Prop where
  kind : L'.kind = L.kind
  outCh : L'.outCh = L.outCh
  inCh : L'.inCh = L.inCh
  taps : L'.taps = L.taps
  tap : L'.tap = L.tap
  normalise : L'.normalise = L.normalise
  weight : L.kind ≠ .norm → ∀ o i t, o < L.outCh → i < L.inCh → t < L.taps →
    L'.w o i t * lout o = L.w o i t * lin (L.reads o i)
  bias : ∀ o, o < L.outCh → L'.biasAt o * lout o = L.biasAt o
  norm : L.kind = .norm → (∀ c, lin c = 1) ∧ ∀ o, o < L.outCh → L'.w o 0 0 * lout o = L.w o 0 0

theorem sample_mul (L : Layer K) (x x' : ℕ → K) (l : K) (h : ∀ p, x' p * l = x p) (p t : ℕ) :
    L.sample x' p t * l = L.sample x p t := by
  unfold Layer.sample
  cases L.tap p t with
  | none => simp
  | some q => exact h q

theorem Rescaled.eval {L L' : Layer K} {lin lout : ℕ → K} (h : Rescaled L L' lin lout) {x x' : Signal K}
    (hx : ∀ c p, x' c p * lin c = x c p) (o p : ℕ) : L'.eval x' o p * lout o = L.eval x o p := by
  unfold Layer.eval
  rw [h.outCh]
  by_cases ho : o < L.outCh
  · rw [if_pos ho, if_pos ho, h.kind]
    by_cases hk : L.kind = .norm
    · obtain ⟨h1, h2⟩ := h.norm hk
      have hxx : x' = x := by
        funext c p
        have := hx c p
        rwa [h1, mul_one] at this
      rw [hk]
      dsimp only
      rw [h.normalise, hxx, add_mul, h.bias o ho, mul_right_comm, h2 o ho]
    · have key : ((∑ i ∈ Finset.range L'.inCh, ∑ t ∈ Finset.range L'.taps,
              L'.w o i t * L'.sample (x' (L'.reads o i)) p t) + L'.biasAt o) * lout o
          = (∑ i ∈ Finset.range L.inCh, ∑ t ∈ Finset.range L.taps,
              L.w o i t * L.sample (x (L.reads o i)) p t) + L.biasAt o := by
        rw [add_mul, h.bias o ho, h.inCh, h.taps, Finset.sum_mul]
        congr 1
        apply Finset.sum_congr rfl
        intro i hi
        rw [Finset.sum_mul]
        apply Finset.sum_congr rfl
        intro t ht
        have hr : L'.reads o i = L.reads o i := by
          unfold Layer.reads
          rw [h.kind, h.inCh]
        have hs : ∀ y : ℕ → K, L'.sample y p t = L.sample y p t := by
          intro y
          unfold Layer.sample
          rw [h.tap]
        rw [hr, hs, mul_right_comm, h.weight hk o i t ho (Finset.mem_range.1 hi) (Finset.mem_range.1 ht),
          mul_assoc, mul_comm (lin _), sample_mul L _ _ _ (hx (L.reads o i))]
      cases hkk : L.kind with
      | norm => exact absurd hkk hk
      | dense => exact key
      | depthwise => exact key
      | grouped n => exact key
  · rw [if_neg ho, if_neg ho, zero_mul]

theorem listMax_mul (l : K) (hl : 0 < l) (xs : List K) :
    listMax (xs.map fun x => x * l) = listMax xs * l := by
  cases xs with
  | nil => simp [listMax]
  | cons a t =>
    simp only [List.map_cons, listMax]
    induction t generalizing a with
    | nil => rfl
    | cons b t ih =>
      simp only [List.map_cons, List.foldl_cons]
      rw [← max_mul_of_nonneg _ _ hl.le]
      exact ih _

theorem Act.eval_mul (a : Act K) {x x' : Signal K} {l : ℕ → K} (hl : ∀ c, 0 < l c)
    (h : ∀ c p, x' c p * l c = x c p) (c p : ℕ) : a.eval x' c p * l c = a.eval x c p := by
  cases a with
  | leaky s =>
    simp only [Act.eval]
    have h0 : 0 ≤ x' c p ↔ 0 ≤ x c p := by
      rw [← h c p]
      exact ⟨fun h1 => mul_nonneg h1 (hl c).le, fun h1 => nonneg_of_mul_nonneg_left h1 (hl c)⟩
    by_cases hx : 0 ≤ x c p
    · rw [if_pos hx, if_pos (h0.2 hx), h]
    · rw [if_neg hx, if_neg (fun h1 => hx (h0.1 h1)), mul_assoc, h]
  | maxPool win =>
    simp only [Act.eval]
    rw [← listMax_mul _ (hl c), List.map_map]
    congr 1
    apply List.map_congr_left
    intro q _
    exact h c q
  | avgPool win d =>
    simp only [Act.eval]
    rw [div_mul_eq_mul_div, ← List.sum_map_mul_right]
    congr 2
    apply List.map_congr_left
    intro q _
    exact h c q

/-- The label of the first operand. -/
def labIn (lab : ℕ → ℕ → K) (ins : List ℕ) : ℕ → K :=
  match ins with
  | i :: _ => lab i
  | [] => fun _ => 1

/-- The labels of a concatenation. -/
def catLab : List ℕ → List (ℕ → K) → ℕ → K
  | n :: ns, l :: ls => fun c => if c < n then l c else catLab ns ls (c - n)
  | _, _ => fun _ => 1

/-- `lab n c` is the factor by which channel `c` of node `n` is divided when the weights `store` are replaced
by `store'`. -/
def NodeConsistent (store store' : ℕ → Layer K) (lab : ℕ → ℕ → K) (n : ℕ) (nd : Node K) : Prop :=
  match nd.op with
  | .input _ => ∀ c, lab n c = 1
  | .module m => Rescaled (store m) (store' m) (labIn lab nd.ins) (lab n)
  | .act _ => ∀ c, lab n c = labIn lab nd.ins c
  | .add k => (∀ i ∈ nd.ins, ∀ c, lab i c = lab n c) ∧ (k.getD 0 = 0 ∨ ∀ c, lab n c = 1)
  | .mul => ∀ c, lab n c = (nd.ins.map fun i => lab i c).prod
  | .cat sizes => ∀ c, c < sizes.sum → lab n c = catLab sizes (nd.ins.map lab) c
  | .other _ => (∀ c, labIn lab nd.ins c = 1) ∧ ∀ c, lab n c = 1
  | .output => (∀ c, labIn lab nd.ins c = 1) ∧ ∀ c, lab n c = 1

def Consistent (store store' : ℕ → Layer K) (lab : ℕ → ℕ → K) (g : Graph K) : Prop :=
  (∀ n c, 0 < lab n c) ∧ ∀ n nd, g[n]? = some nd → NodeConsistent store store' lab n nd

theorem catSignals_mul : ∀ (sizes : List ℕ) (vs vs' : List (Signal K)) (ls : List (ℕ → K)),
    vs.length = ls.length → vs'.length = ls.length →
    (∀ i, i < ls.length → ∀ c p, (vs'.getD i fun _ _ => 0) c p * (ls.getD i fun _ => 1) c
        = (vs.getD i fun _ _ => 0) c p) →
    ∀ (c : ℕ), c < sizes.sum → ∀ p, catSignals sizes vs' c p * catLab sizes ls c = catSignals sizes vs c p
  | [], _, _, _, _, _, _, c, hc, _ => by simp at hc
  | n :: ns, [], [], [], _, _, _, c, _, p => by simp [catSignals, catLab]
  | _ :: _, [], _ :: _, ls, h1, h2, _, _, _, _ => by rw [← h1] at h2; simp at h2
  | _ :: _, _ :: _, [], ls, h1, h2, _, _, _, _ => by rw [← h1] at h2; simp at h2
  | n :: ns, v :: vs, v' :: vs', l :: ls, h1, h2, h, c, hc, p => by
    simp only [catSignals, catLab]
    by_cases hcn : c < n
    · rw [if_pos hcn, if_pos hcn, if_pos hcn]
      exact h 0 (by simp) c p
    · rw [if_neg hcn, if_neg hcn, if_neg hcn]
      apply catSignals_mul ns vs vs' ls (by simpa using h1) (by simpa using h2)
      · intro i hi c p
        have := h (i + 1) (by simpa using hi) c p
        simpa using this
      · simp only [List.sum_cons] at hc
        omega

theorem catSignals_beyond : ∀ (sizes : List ℕ) (vs : List (Signal K)) (c : ℕ), sizes.sum ≤ c →
    ∀ p, catSignals sizes vs c p = 0
  | [], vs, c, _, p => by simp [catSignals]
  | n :: ns, [], c, _, p => by simp [catSignals]
  | n :: ns, v :: vs, c, hc, p => by
    simp only [List.sum_cons] at hc
    simp only [catSignals]
    rw [if_neg (by omega)]
    exact catSignals_beyond ns vs (c - n) (by omega) p

theorem evalNode_mul {store store' : ℕ → Layer K} {lab : ℕ → ℕ → K} (hpos : ∀ n c, 0 < lab n c)
    (inputs : ℕ → Signal K) {env env' : List (Signal K)} {n : ℕ} {nd : Node K}
    (hn : NodeConsistent store store' lab n nd)
    (h : ∀ i c p, (env'.getD i fun _ _ => 0) c p * lab i c = (env.getD i fun _ _ => 0) c p) (c p : ℕ) :
    evalNode store' inputs env' nd c p * lab n c = evalNode store inputs env nd c p := by
  have hfirst : ∀ c p, (match nd.ins with
        | i :: _ => env'.getD i fun _ _ => 0
        | [] => fun _ _ => (0 : K)) c p * labIn lab nd.ins c
      = (match nd.ins with
        | i :: _ => env.getD i fun _ _ => 0
        | [] => fun _ _ => (0 : K)) c p := by
    intro c p
    cases nd.ins with
    | nil => simp [labIn]
    | cons i t => exact h i c p
  have hlpos : ∀ c, 0 < labIn lab nd.ins c := by
    intro c
    cases nd.ins with
    | nil => simp [labIn]
    | cons i t => exact hpos i c
  unfold NodeConsistent at hn
  unfold evalNode
  cases hop : nd.op with
  | input k =>
    rw [hop] at hn
    dsimp only at hn ⊢
    rw [hn, mul_one]
  | module m =>
    rw [hop] at hn
    dsimp only at hn ⊢
    exact hn.eval hfirst c p
  | act a =>
    rw [hop] at hn
    dsimp only at hn ⊢
    rw [hn]
    exact a.eval_mul hlpos hfirst c p
  | add k =>
    rw [hop] at hn
    dsimp only at hn ⊢
    obtain ⟨h1, h2⟩ := hn
    rw [add_mul]
    congr 1
    · rw [← List.sum_map_mul_right]
      congr 1
      apply List.map_congr_left
      intro i hi
      rw [← h1 i hi c]
      exact h i c p
    · rcases h2 with h2 | h2
      · rw [h2, zero_mul]
      · rw [h2, mul_one]
  | mul =>
    rw [hop] at hn
    dsimp only at hn ⊢
    rw [hn, ← List.prod_map_mul]
    congr 1
    apply List.map_congr_left
    intro i _
    exact h i c p
  | cat sizes =>
    rw [hop] at hn
    dsimp only at hn ⊢
    by_cases hc : c < sizes.sum
    · rw [hn c hc]
      apply catSignals_mul sizes _ _ _ (by simp) (by simp) _ c hc
      intro i hi c p
      simp only [List.length_map] at hi
      rw [List.getD_eq_getElem _ _ (by simpa using hi), List.getD_eq_getElem _ _ (by simpa using hi),
        List.getD_eq_getElem _ _ (by simpa using hi), List.getElem_map, List.getElem_map, List.getElem_map]
      exact h _ c p
    · push Not at hc
      rw [catSignals_beyond _ _ _ hc, catSignals_beyond _ _ _ hc, zero_mul]
  | other f =>
    rw [hop] at hn
    dsimp only at hn ⊢
    rw [hn.2, mul_one]
    have e : (match nd.ins with
        | i :: _ => env'.getD i fun _ _ => 0
        | [] => fun _ _ => (0 : K))
      = (match nd.ins with
        | i :: _ => env.getD i fun _ _ => 0
        | [] => fun _ _ => (0 : K)) := by
      funext c p
      have := hfirst c p
      rwa [hn.1, mul_one] at this
    exact congrFun (congrFun (congrArg f e) c) p
  | output =>
    rw [hop] at hn
    dsimp only at hn ⊢
    have := hfirst c p
    rw [hn.1, mul_one] at this
    rw [hn.2, mul_one]
    exact this

theorem run_append (store : ℕ → Layer K) (inputs : ℕ → Signal K) (g : Graph K) (nd : Node K) :
    run store inputs (g ++ [nd]) = run store inputs g ++ [evalNode store inputs (run store inputs g) nd] := by
  simp [run, List.foldl_append]

theorem length_run (store : ℕ → Layer K) (inputs : ℕ → Signal K) (g : Graph K) :
    (run store inputs g).length = g.length := by
  induction g using List.reverseRecOn with
  | nil => rfl
  | append_singleton g nd ih => rw [run_append]; simp [ih]

theorem run_mul {store store' : ℕ → Layer K} {lab : ℕ → ℕ → K} {g : Graph K}
    (h : Consistent store store' lab g) (inputs : ℕ → Signal K) (i c p : ℕ) :
    ((run store' inputs g).getD i fun _ _ => 0) c p * lab i c = ((run store inputs g).getD i fun _ _ => 0) c p := by
  obtain ⟨hpos, hc⟩ := h
  induction g using List.reverseRecOn generalizing i c p with
  | nil => simp [run]
  | append_singleton g nd ih =>
    have hc' : ∀ n nd, g[n]? = some nd → NodeConsistent store store' lab n nd := by
      intro n nd' hn
      apply hc
      have hlt : n < g.length := by
        by_contra hcon
        rw [List.getElem?_eq_none (by omega)] at hn
        cases hn
      rw [List.getElem?_append_left hlt]
      exact hn
    have ih' := fun i c p => ih i c p hc'
    rw [run_append, run_append]
    rcases lt_trichotomy i g.length with hi | hi | hi
    · have e1 : ∀ st, ((run st inputs g ++ [evalNode st inputs (run st inputs g) nd]).getD i fun _ _ => 0)
          = (run st inputs g).getD i fun _ _ => 0 := by
        intro st
        rw [List.getD_eq_getElem?_getD, List.getD_eq_getElem?_getD,
          List.getElem?_append_left (by rw [length_run]; exact hi)]
      rw [e1, e1]
      exact ih' i c p
    · have e1 : ∀ st, ((run st inputs g ++ [evalNode st inputs (run st inputs g) nd]).getD i fun _ _ => 0)
          = evalNode st inputs (run st inputs g) nd := by
        intro st
        rw [List.getD_eq_getElem?_getD, List.getElem?_append_right (by rw [length_run]; omega), length_run, hi]
        simp
      rw [e1, e1]
      apply evalNode_mul hpos inputs
      · apply hc
        rw [hi]
        simp
      · exact ih'
    · have e1 : ∀ st, ((run st inputs g ++ [evalNode st inputs (run st inputs g) nd]).getD i fun _ _ => 0)
          = fun _ _ => (0 : K) := by
        intro st
        rw [List.getD_eq_getElem?_getD, List.getElem?_eq_none (by simp [length_run]; omega)]
        rfl
      rw [e1, e1, zero_mul]

theorem outputs_of_consistent {store store' : ℕ → Layer K} {lab : ℕ → ℕ → K} {g : Graph K}
    (h : Consistent store store' lab g) (inputs : ℕ → Signal K) :
    outputs store' g inputs = outputs store g inputs := by
  unfold outputs
  apply List.ext_getElem?
  intro k
  have key : (g.zip (run store' inputs g)).filter (fun nv => nv.1.isOutput)
      = (g.zip (run store inputs g)).filter (fun nv => nv.1.isOutput) := by
    have aux : ∀ (gs : Graph K) (a b : List (Signal K)), a.length = gs.length → b.length = gs.length →
        (∀ (i : ℕ) (nd : Node K), gs[i]? = some nd → nd.isOutput → a[i]? = b[i]?) →
        (gs.zip a).filter (fun nv => nv.1.isOutput) = (gs.zip b).filter (fun nv => nv.1.isOutput) := by
      intro gs
      induction gs with
      | nil => intros; rfl
      | cons x gs ih =>
        intro a b ha hb hab
        cases a with
        | nil => simp at ha
        | cons a0 a =>
          cases b with
          | nil => simp at hb
          | cons b0 b =>
            simp only [List.zip_cons_cons]
            have ht := ih a b (by simpa using ha) (by simpa using hb)
              (fun i (nd : Node K) h1 h2 => by simpa using hab (i + 1) nd (by simpa using h1) h2)
            by_cases hx : x.isOutput
            · have h0 := hab 0 x (by simp) hx
              simp only [List.getElem?_cons_zero, Option.some.injEq] at h0
              rw [List.filter_cons_of_pos (by simpa using hx), List.filter_cons_of_pos (by simpa using hx), ht, h0]
            · rw [List.filter_cons_of_neg (by simpa using hx), List.filter_cons_of_neg (by simpa using hx), ht]
    apply aux
    · exact length_run _ _ _
    · exact length_run _ _ _
    · intro i nd hi ho
      have hlt : i < g.length := by
        by_contra hcon
        rw [List.getElem?_eq_none (by omega)] at hi
        cases hi
      have hn := h.2 i nd hi
      have hlab : ∀ c, lab i c = 1 := by
        unfold NodeConsistent at hn
        unfold Node.isOutput at ho
        cases hop : nd.op with
        | output => rw [hop] at hn; exact hn.2
        | _ => rw [hop] at ho; cases ho
      rw [List.getElem?_eq_getElem (by rw [length_run]; exact hlt),
        List.getElem?_eq_getElem (by rw [length_run]; exact hlt)]
      congr 1
      funext c p
      have := run_mul h inputs i c p
      rw [hlab, mul_one, List.getD_eq_getElem _ _ (by rw [length_run]; exact hlt),
        List.getD_eq_getElem _ _ (by rw [length_run]; exact hlt)] at this
      exact this
  rw [key]

end Brevitas.Net
