import Verif.Model.A2QLayer
import Verif.Props.A2Q
import Mathlib.Algebra.Field.Rat

/-!
# C126: layers with accumulator-aware weights never overflow, whatever happened to them before
-/

set_option linter.unusedSectionVars false

namespace Brevitas.Props

open Brevitas Brevitas.A2QLayer

variable {K : Type*} [Field K] [LinearOrder K] [IsStrictOrderedRing K] [FloorRing K]

/-- Every channel has a positive scale and at least one weight. -/
def GoodChannels (cs : List (Channel K)) : Prop := ∀ c ∈ cs, 0 < c.s ∧ c.ws ≠ []

/-- The history sets only such channels. -/
def GoodHistory (ops : List (Op K)) : Prop := ∀ cs, Op.setChannels cs ∈ ops → GoodChannels cs

/-- `w` holds, per channel, codes of `b` bits times the scale, and no sum of products of a channel with inputs of `N` bits, of any subset in any order, leaves the `P`-bit
accumulator. -/
def Fits (b P N : ℕ) (signed : Bool) (w : List (List K × K)) : Prop :=
  ∀ c ∈ w, ∃ qs : List ℤ, c.1 = qs.map (fun q : ℤ => (q : K) * c.2) ∧ (∀ q ∈ qs, Spec.IsCode true true b q) ∧
    ∀ xs : List ℤ, (∀ x ∈ xs, Spec.IsCode signed false N x) → NeverOverflows P (products qs xs)

private theorem mem_mapM {α β : Type*} (f : α → Option β) (l : List α) (r : List β) (h : l.mapM f = some r) (y : β) (hy : y ∈ r) :
    ∃ x ∈ l, f x = some y := by
  induction l generalizing r with
  | nil =>
    simp only [List.mapM_nil, Option.pure_def, Option.some.injEq] at h
    subst h
    cases hy
  | cons a as ih =>
    simp only [List.mapM_cons, Option.bind_eq_bind, Option.pure_def, Option.bind_eq_some_iff, Option.some.injEq] at h
    obtain ⟨b, hb, bs, hbs, rfl⟩ := h
    rcases List.mem_cons.1 hy with rfl | hy
    · exact ⟨a, List.mem_cons_self, hb⟩
    · obtain ⟨x, hx, he⟩ := ih bs hbs hy
      exact ⟨x, List.mem_cons_of_mem _ hx, he⟩

private theorem tensorQuant_fits (l : Layer K) (hb : 1 ≤ l.b) (hP : 1 ≤ l.P) (hl : GoodChannels l.channels) (N : ℕ) (hN : 1 ≤ N) (signed : Bool) (w : List (List K × K))
    (h : tensorQuant l N signed = some w) : Fits l.b l.P N signed w := by
  rintro ⟨ys, sc⟩ hc
  obtain ⟨c, hm, he⟩ := mem_mapM _ _ _ h _ hc
  obtain ⟨h1, h2⟩ := hl c hm
  cases hz : l.zeroCentred with
  | true =>
    rw [hz, if_pos rfl] at he
    exact (C21_no_overflow l.b l.P N hb hP hN signed l.minVal c.s c.g h1 c.ws ys h2 sc he).2
  | false =>
    rw [hz, if_neg (by simp)] at he
    exact (C20_no_overflow l.b l.P N hb hP hN signed l.minVal c.s c.g h1 c.ws ys sc he).2

private theorem note_keeps (l : Layer K) (i : Option Inp) : (noteInput l i).b = l.b ∧ (noteInput l i).P = l.P ∧ (noteInput l i).channels = l.channels ∧
    (noteInput l i).zeroCentred = l.zeroCentred ∧ (noteInput l i).minVal = l.minVal ∧ (noteInput l i).enabled = l.enabled ∧
    (noteInput l i).training = l.training ∧ (noteInput l i).cacheOn = l.cacheOn := by
  rcases i with _ | _ | ⟨N, sg, cs⟩
  · exact ⟨rfl, rfl, rfl, rfl, rfl, rfl, rfl, rfl⟩
  · exact ⟨rfl, rfl, rfl, rfl, rfl, rfl, rfl, rfl⟩
  · unfold noteInput
    cases (!l.training && l.cacheOn) <;> exact ⟨rfl, rfl, rfl, rfl, rfl, rfl, rfl, rfl⟩

private theorem tensorQuant_note (l : Layer K) (i : Option Inp) (N : ℕ) (signed : Bool) : tensorQuant (noteInput l i) N signed = tensorQuant l N signed := by
  obtain ⟨h1, h2, h3, h4, h5, -⟩ := note_keeps l i
  unfold tensorQuant
  rw [h1, h2, h3, h4, h5]

private theorem weightQuant_eq (l : Layer K) (i : Option Inp) : weightQuant l i =
    if l.enabled then (inputMeta (noteInput l i) i).bind fun m => (tensorQuant l m.1 m.2).map fun w => (noteInput l i, .quant w)
    else some (noteInput l i, .plain (l.channels.map fun c => c.ws)) := by
  obtain ⟨-, -, h3, -, -, h6, -⟩ := note_keeps l i
  unfold weightQuant
  simp only [tensorQuant_note, h3, h6]

private theorem weightQuant_state (l l' : Layer K) (i : Option Inp) (w : Weight K) (h : weightQuant l i = some (l', w)) : l' = noteInput l i := by
  rw [weightQuant_eq] at h
  cases he : l.enabled with
  | true =>
    rw [he, if_pos rfl] at h
    simp only [Option.bind_eq_some_iff, Option.map_eq_some_iff, Prod.mk.injEq] at h
    obtain ⟨_, -, _, -, rfl, -⟩ := h
    rfl
  | false =>
    rw [he, if_neg (by simp)] at h
    simp only [Option.some.injEq, Prod.mk.injEq] at h
    exact h.1.symm

/-- What an operation keeps: the configuration, and good channels. -/
private theorem step_keeps (l l' : Layer K) (o : Op K) (w : Option (Weight K)) (h : step l o = some (l', w)) :
    l'.b = l.b ∧ l'.P = l.P ∧ (GoodChannels l.channels → (∀ cs, o = .setChannels cs → GoodChannels cs) → GoodChannels l'.channels) := by
  have key : ∀ i l' w, weightQuant l i = some (l', w) → l'.b = l.b ∧ l'.P = l.P ∧ l'.channels = l.channels := by
    intro i l' w h
    rw [weightQuant_state _ _ _ _ h]
    exact ⟨(note_keeps l i).1, (note_keeps l i).2.1, (note_keeps l i).2.2.1⟩
  cases o with
  | train b =>
    simp only [step, Option.some.injEq, Prod.mk.injEq] at h
    rw [← h.1]
    exact ⟨rfl, rfl, fun hg _ => hg⟩
  | setEnabled b =>
    simp only [step, Option.some.injEq, Prod.mk.injEq] at h
    rw [← h.1]
    exact ⟨rfl, rfl, fun hg _ => hg⟩
  | setCache b =>
    simp only [step, Option.some.injEq, Prod.mk.injEq] at h
    rw [← h.1]
    exact ⟨rfl, rfl, fun hg _ => hg⟩
  | setChannels cs =>
    simp only [step, Option.some.injEq, Prod.mk.injEq] at h
    rw [← h.1]
    exact ⟨rfl, rfl, fun _ hg => hg cs rfl⟩
  | forward x =>
    simp only [step, Option.map_eq_some_iff, Prod.mk.injEq] at h
    obtain ⟨⟨l1, w1⟩, h, rfl, -⟩ := h
    obtain ⟨h1, h2, h3⟩ := key _ _ _ h
    exact ⟨h1, h2, fun hg _ => by rw [h3]; exact hg⟩
  | quantWeight =>
    simp only [step, Option.map_eq_some_iff, Prod.mk.injEq] at h
    obtain ⟨⟨l1, w1⟩, h, rfl, -⟩ := h
    obtain ⟨h1, h2, h3⟩ := key _ _ _ h
    exact ⟨h1, h2, fun hg _ => by rw [h3]; exact hg⟩

private theorem run_keeps (l l' : Layer K) (ops : List (Op K)) (ws : List (Weight K)) (h : run l ops = some (l', ws)) (hl : GoodChannels l.channels) (ho : GoodHistory ops) :
    l'.b = l.b ∧ l'.P = l.P ∧ GoodChannels l'.channels := by
  induction ops generalizing l ws with
  | nil =>
    simp only [run, Option.some.injEq, Prod.mk.injEq] at h
    rw [← h.1]
    exact ⟨rfl, rfl, hl⟩
  | cons o os ih =>
    simp only [run, Option.bind_eq_some_iff, Option.map_eq_some_iff, Prod.mk.injEq] at h
    obtain ⟨⟨l1, w1⟩, h1, ⟨l2, w2⟩, h2, rfl, -⟩ := h
    obtain ⟨k1, k2, k3⟩ := step_keeps _ _ _ _ h1
    have hg := k3 hl fun cs he => ho cs (by rw [he]; exact List.mem_cons_self)
    obtain ⟨j1, j2, j3⟩ := ih _ _ h2 hg fun cs hc => ho cs (List.mem_cons_of_mem _ hc)
    exact ⟨j1.trans k1, j2.trans k2, j3⟩

/-- After every history - training, loading, caching, inputs of other widths or signs, disabling and enabling - a forward pass on a quantised input uses weights with
which its integer sums fit the accumulator. -/
theorem C126_no_overflow (l0 l l' : Layer K) (hb : 1 ≤ l0.b) (hP : 1 ≤ l0.P) (h0 : GoodChannels l0.channels) (ops : List (Op K)) (ho : GoodHistory ops) (before : List (Weight K))
    (hrun : run l0 ops = some (l, before)) (N : ℕ) (hN : 1 ≤ N) (signed : Bool) (codes : List ℤ) (hc : ∀ x ∈ codes, Spec.IsCode signed false N x) (w : List (List K × K))
    (h : step l (.forward (.quant N signed codes)) = some (l', some (.quant w))) :
    ∀ c ∈ w, ∃ qs : List ℤ, c.1 = qs.map (fun q : ℤ => (q : K) * c.2) ∧ (∀ q ∈ qs, Spec.IsCode true true l0.b q) ∧ NeverOverflows l0.P (products qs codes) := by
  obtain ⟨k1, k2, k3⟩ := run_keeps _ _ _ _ hrun h0 ho
  simp only [step, Option.map_eq_some_iff, Prod.mk.injEq, Option.some.injEq] at h
  obtain ⟨⟨l1, w1⟩, h, -, rfl⟩ := h
  have hq : tensorQuant l N signed = some w := by
    rw [weightQuant_eq] at h
    cases he : l.enabled with
    | true =>
      simp only [he, if_true, inputMeta, Option.bind_some, Option.map_eq_some_iff, Prod.mk.injEq, Weight.quant.injEq] at h
      obtain ⟨a, ha, -, rfl⟩ := h
      exact ha
    | false => simp [he] at h
  intro c hcw
  obtain ⟨qs, q1, q2, q3⟩ := tensorQuant_fits l (by omega) (by omega) k3 N hN signed w hq c hcw
  rw [k1] at q2
  rw [k2] at q3
  exact ⟨qs, q1, q2, q3 codes hc⟩

/-- A plain input is refused, whatever happened before. -/
theorem C126_plain_input_refused (l : Layer K) (he : l.enabled = true) : step l (.forward .plain) = none := by
  simp [step, weightQuant_eq, he, inputMeta]

/-- The flags of a layer. -/
structure LayerFlags where
  training : Bool
  cacheOn : Bool

/-- Specification: width and sign of the last quantised input of a forward pass in eval mode with caching on. -/
def lastInput : LayerFlags → Option (ℕ × Bool) → List (Op K) → Option (ℕ × Bool)
  | _, m, [] => m
  | f, m, .train b :: os => lastInput { f with training := b } m os
  | f, m, .setCache b :: os => lastInput { f with cacheOn := b } m os
  | f, m, .forward (.quant N signed _) :: os => lastInput f (if f.training = false ∧ f.cacheOn = true then some (N, signed) else m) os
  | f, m, _ :: os => lastInput f m os

private theorem cached_eq (l l' : Layer K) (ops : List (Op K)) (ws : List (Weight K)) (h : run l ops = some (l', ws)) :
    l'.cached = lastInput ⟨l.training, l.cacheOn⟩ l.cached ops := by
  induction ops generalizing l ws with
  | nil =>
    simp only [run, Option.some.injEq, Prod.mk.injEq] at h
    rw [← h.1]
    rfl
  | cons o os ih =>
    simp only [run, Option.bind_eq_some_iff, Option.map_eq_some_iff, Prod.mk.injEq] at h
    obtain ⟨⟨l1, w1⟩, h1, ⟨l2, w2⟩, h2, rfl, -⟩ := h
    dsimp only at h2
    have hi := ih _ _ h2
    cases o with
    | train b =>
      simp only [step, Option.some.injEq, Prod.mk.injEq] at h1
      rw [← h1.1] at hi
      exact hi
    | setEnabled b =>
      simp only [step, Option.some.injEq, Prod.mk.injEq] at h1
      rw [← h1.1] at hi
      exact hi
    | setCache b =>
      simp only [step, Option.some.injEq, Prod.mk.injEq] at h1
      rw [← h1.1] at hi
      exact hi
    | setChannels cs =>
      simp only [step, Option.some.injEq, Prod.mk.injEq] at h1
      rw [← h1.1] at hi
      exact hi
    | quantWeight =>
      simp only [step, Option.map_eq_some_iff, Prod.mk.injEq] at h1
      obtain ⟨⟨l3, w3⟩, h3, rfl, rfl⟩ := h1
      rw [weightQuant_state _ _ _ _ h3] at hi
      exact hi
    | forward x =>
      simp only [step, Option.map_eq_some_iff, Prod.mk.injEq] at h1
      obtain ⟨⟨l3, w3⟩, h3, rfl, rfl⟩ := h1
      rw [weightQuant_state _ _ _ _ h3] at hi
      cases x with
      | plain => exact hi
      | quant N signed codes =>
        have hk := note_keeps l (some (.quant N signed codes))
        rw [hk.2.2.2.2.2.2.1, hk.2.2.2.2.2.2.2] at hi
        rw [hi]
        by_cases hf : l.training = false ∧ l.cacheOn = true
        · simp [lastInput, noteInput, hf.1, hf.2]
        · have hf' : (!l.training && l.cacheOn) = false := by
            rw [Bool.eq_false_iff]
            simpa using hf
          simp only [lastInput, noteInput, if_neg hf, hf', Bool.false_eq_true, if_false]

/-- After every history `quant_weight()` returns the weights for the last quantised input seen in eval mode with caching on - those a forward pass on such an input uses - and
raises if there was none. -/
theorem C126_quant_weight (l0 l : Layer K) (ops : List (Op K)) (before : List (Weight K)) (hrun : run l0 ops = some (l, before)) (he : l.enabled = true) :
    (lastInput ⟨l0.training, l0.cacheOn⟩ l0.cached ops = none → step l .quantWeight = none) ∧
      ∀ N signed, lastInput ⟨l0.training, l0.cacheOn⟩ l0.cached ops = some (N, signed) →
        ∀ codes, (step l .quantWeight).map (fun r => r.2) = (step l (.forward (.quant N signed codes))).map fun r => r.2 := by
  rw [← cached_eq _ _ _ _ hrun]
  constructor
  · intro h
    simp [step, weightQuant_eq, he, inputMeta, noteInput, h]
  · intro N signed h codes
    simp only [step, weightQuant_eq, he, if_true, inputMeta, Option.bind_some, Option.map_map, Function.comp_def]
    simp only [noteInput, h, Option.bind_some, Option.map_map, Function.comp_def]

/-- A layer with 8-bit weights and an 8-bit accumulator. -/
def smallLayer : Layer ℚ := ⟨8, 8, none, false, [⟨[7, -3], 1, 10⟩], true, false, true, none⟩

/-- Non-vacuity: the layer after a 4-bit input in eval mode, with weights cut back to the budget. -/
example : GoodChannels smallLayer.channels ∧ GoodHistory ([.forward (.quant 4 false [15, 0])] : List (Op ℚ)) ∧
    ((run smallLayer [.forward (.quant 4 false [15, 0])]).map fun r => match r.2 with | [.quant w] => w | _ => []) = some [([5, -2], 1)] := by
  refine ⟨by simp [GoodChannels, smallLayer], by simp [GoodHistory], by decide +kernel⟩

/-- What `quant_weight()` returns after later inputs were wider but not cached is for the narrower ones: with the wider ones it overflows. The forward pass itself does not. -/
theorem C126_stale_quant_weight : let ops : List (Op ℚ) := [.forward (.quant 4 false [15, 0]), .train true, .forward (.quant 8 false [255, 0]), .quantWeight]
    ((run smallLayer ops).map fun r => match r.2 with | [.quant w1, .quant w2, .quant w3] => (w1, w2, w3) | _ => ([], [], [])) =
        some ([([5, -2], 1)], [([0, 0], 1)], [([5, -2], 1)]) ∧ ¬ NeverOverflows 8 (products [5, -2] [255, 0]) := by
  refine ⟨by decide +kernel, fun h => ?_⟩
  have := h (products [5, -2] [255, 0]) (List.Perm.refl _) 2
  revert this
  unfold Spec.IsCode
  decide

end Brevitas.Props
