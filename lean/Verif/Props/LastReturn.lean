import Verif.Spec.LastReturn
import Mathlib.Tactic.Common

/-!
# C132: the output of a quantised model is a plain tensor
-/

namespace Brevitas.Props

open Brevitas.LastReturn

private theorem qualifies_iff (g : Graph) (i : ℕ) : g.qualifies i = true ↔ g.Quantises i ∧ g.users i = 1 := by
  unfold Graph.qualifies Graph.Quantises
  cases h : g.nodes[i]? with
  | none => simp
  | some n =>
    cases ho : n.op with
    | module m =>
      simp only [Option.map_some, ho, Bool.and_eq_true, decide_eq_true_eq]
      constructor
      · rintro ⟨h1, h2⟩
        exact ⟨⟨n, m, rfl, ho, h2⟩, h1⟩
      · rintro ⟨⟨n', m', hn, hm, hf⟩, h1⟩
        cases hn
        rw [ho] at hm
        cases hm
        exact ⟨h1, hf⟩
    | _ =>
      simp only [Option.map_some, ho, Bool.false_eq_true, false_iff]
      rintro ⟨⟨n', m', hn, hm, -⟩, -⟩
      cases hn
      rw [ho] at hm
      cases hm

private theorem last_spec (g : Graph) (k : ℕ) :
    match g.last k with
    | none => ∀ j < k, g.qualifies j = false
    | some i => i < k ∧ g.qualifies i = true ∧ ∀ j, i < j → j < k → g.qualifies j = false := by
  induction k with
  | zero => intro j hj; omega
  | succ k ih =>
    unfold Graph.last
    cases hq : g.qualifies k with
    | true =>
      simp only [if_true]
      exact ⟨by omega, hq, fun j h1 h2 => by omega⟩
    | false =>
      simp only [Bool.false_eq_true, if_false]
      cases hl : g.last k with
      | none =>
        rw [hl] at ih
        intro j hj
        rcases Nat.lt_succ_iff_lt_or_eq.mp hj with h | h
        · exact ih j h
        · rw [h]; exact hq
      | some i =>
        rw [hl] at ih
        refine ⟨by have := ih.1; omega, ih.2.1, fun j h1 h2 => ?_⟩
        rcases Nat.lt_succ_iff_lt_or_eq.mp h2 with h | h
        · exact ih.2.2 j h1 h
        · rw [h]; exact hq

private theorem quantises_lt {g : Graph} {i : ℕ} (h : g.Quantises i) : i < g.nodes.length := by
  obtain ⟨n, m, hn, -⟩ := h
  exact (List.getElem?_eq_some_iff.mp hn).1

/-- The node that the loop stops at. -/
private theorem last_eq (g : Graph) (s : ℕ) (hs : g.Quantises s) (hu : g.users s = 1) (hlast : ∀ j, s < j → g.Quantises j → g.users j ≠ 1) :
    g.last g.nodes.length = some s := by
  have := last_spec g g.nodes.length
  have hq : g.qualifies s = true := (qualifies_iff g s).mpr ⟨hs, hu⟩
  cases hl : g.last g.nodes.length with
  | none =>
    rw [hl] at this
    rw [this s (quantises_lt hs)] at hq
    cases hq
  | some i =>
    rw [hl] at this
    obtain ⟨h1, h2, h3⟩ := this
    obtain ⟨hi1, hi2⟩ := (qualifies_iff g i).mp h2
    rcases Nat.lt_trichotomy i s with h | h | h
    · rw [h3 s h (quantises_lt hs)] at hq; cases hq
    · rw [h]
    · exact absurd hi2 (hlast i h hi1)

/-- C132, the frame: at most one module changes, from returning quant tensors to returning plain ones; the graph stays. -/
theorem C132_at_most_one_module (g : Graph) :
    g.disableLast.nodes = g.nodes ∧ (g.disableLast = g ∨ ∃ m, g.returnQuantTensor m = some true ∧ g.disableLast.returnQuantTensor m = some false ∧
      (∃ i n, g.nodes[i]? = some n ∧ n.op = .module m ∧ g.users i = 1) ∧ ∀ k, k ≠ m → g.disableLast.returnQuantTensor k = g.returnQuantTensor k) := by
  unfold Graph.disableLast
  have hspec := last_spec g g.nodes.length
  cases hl : g.last g.nodes.length with
  | none => exact ⟨rfl, Or.inl rfl⟩
  | some i =>
    rw [hl] at hspec
    obtain ⟨⟨n, m, hn, hm, hf⟩, hu⟩ := (qualifies_iff g i).mp hspec.2.1
    have ho : (g.nodes[i]?).map Node.op = some (.module m) := by rw [hn]; simp [hm]
    simp only [ho]
    refine ⟨trivial, Or.inr ⟨m, hf, by simp, ⟨i, n, hn, hm, hu⟩, fun k hk => ?_⟩⟩
    simp [Function.update_of_ne hk]

private theorem arrives_of_quant (g : Graph) (ho : g.Ordered) (quant : ℕ → Prop) (hr : g.Run quant) :
    ∀ i, i < g.nodes.length → quant i → ∃ s, g.Arrives s i ∧ quant s := by
  intro i
  induction i using Nat.strongRecOn with
  | ind i ih =>
    intro hi hq
    have hn : g.nodes[i]? = some g.nodes[i] := List.getElem?_eq_getElem hi
    have := hr i _ hn hq
    have pass : (∃ a ∈ (g.nodes[i]).args, quant a) → g.PassesOn g.nodes[i] → ∃ s, g.Arrives s i ∧ quant s := by
      rintro ⟨a, ha, hqa⟩ hp
      have hlt := ho i _ hn a ha
      obtain ⟨s, hs, hqs⟩ := ih a hlt (by omega) hqa
      exact ⟨s, .pass hn hp ha hs, hqs⟩
    cases hop : (g.nodes[i]).op with
    | placeholder => rw [hop] at this; exact this.elim
    | module m =>
      rw [hop] at this
      rcases this with h | ⟨h, hex⟩
      · exact ⟨i, .here ⟨_, m, hn, hop, h⟩, hq⟩
      · exact pass hex (by unfold Graph.PassesOn; rw [hop]; exact h)
    | function => rw [hop] at this; exact pass this (by unfold Graph.PassesOn; rw [hop]; trivial)
    | output => rw [hop] at this; exact pass this (by unfold Graph.PassesOn; rw [hop]; trivial)

/-- C132: if the only quant tensor that can arrive at the output is the one of a call whose value is read once, and no later call of a layer that returns quant tensors is read
exactly once, then no run of the transformed graph has a quant tensor there. -/
theorem C132_output_is_plain (g : Graph) (ho : g.Ordered) (o s : ℕ) (hol : o < g.nodes.length) (hs : g.Quantises s) (hu : g.users s = 1)
    (hlast : ∀ j, s < j → g.Quantises j → g.users j ≠ 1) (honly : ∀ c, g.Arrives c o → c = s) :
    ∀ quant, g.disableLast.Run quant → ¬ quant o := by
  intro quant hr hq
  obtain ⟨n, m, hn, hm, hf⟩ := hs
  have hdis : g.disableLast = { g with returnQuantTensor := Function.update g.returnQuantTensor m (some false) } := by
    unfold Graph.disableLast
    have hop : (g.nodes[s]?).map Node.op = some (.module m) := by rw [hn]; simp [hm]
    rw [last_eq g s ⟨n, m, hn, hm, hf⟩ hu hlast]
    simp only [hop]
  have hr' : g.Run quant := by
    intro i ni hi hqi
    have := hr i ni (by rw [hdis]; exact hi) hqi
    cases hop : ni.op with
    | module k =>
      rw [hop] at this
      simp only at this ⊢
      rw [hdis] at this
      by_cases hk : k = m
      · subst hk; simp at this
      · simpa [Function.update_of_ne hk] using this
    | placeholder => rw [hop] at this; exact this
    | function => rw [hop] at this; exact this
    | output => rw [hop] at this; exact this
  obtain ⟨c, hc, hqc⟩ := arrives_of_quant g ho quant hr' o hol hq
  have := honly c hc
  subst this
  have := hr c n (by rw [hdis]; exact hn) hqc
  rw [hm] at this
  simp only at this
  rw [hdis] at this
  simp at this

private theorem arrives_quantises {g : Graph} {s i : ℕ} (h : g.Arrives s i) : g.Quantises s := by
  induction h with
  | here h => exact h
  | pass _ _ _ _ ih => exact ih

private theorem chain_node {g : Graph} {ops : List Op} (hg : g.nodes = ⟨.placeholder, []⟩ :: ((ops ++ [Op.output]).mapIdx fun i o => ⟨o, [i]⟩)) (i : ℕ) (n : Node)
    (hn : g.nodes[i + 1]? = some n) : n.args = [i] := by
  rw [hg, List.getElem?_cons_succ, List.getElem?_mapIdx] at hn
  obtain ⟨o, -, rfl⟩ := Option.map_eq_some_iff.mp hn
  rfl

private theorem countP_mapIdx (l : List Op) (f : ℕ → ℕ) (hf : ∀ a b, f a = f b → a = b) (k : ℕ) :
    (l.mapIdx fun i o => (⟨o, [f i]⟩ : Node)).countP (fun n => f k ∈ n.args) = if k < l.length then 1 else 0 := by
  induction l generalizing f k with
  | nil => simp
  | cons a l ih =>
    rw [List.mapIdx_cons, List.countP_cons]
    cases k with
    | zero =>
      have : (List.mapIdx (fun i o => (⟨o, [f (i + 1)]⟩ : Node)) l).countP (fun n => decide (f 0 ∈ n.args)) = 0 := by
        rw [List.countP_eq_zero]
        intro n hn
        obtain ⟨i, hi, rfl⟩ := List.mem_mapIdx.mp hn
        simp only [List.mem_singleton, decide_eq_true_eq]
        intro h
        exact absurd (hf _ _ h) (by omega)
      rw [this]
      simp
    | succ k =>
      have h1 : f (k + 1) ≠ f 0 := fun h => absurd (hf _ _ h) (by omega)
      rw [ih (fun i => f (i + 1)) (fun a b h => by have := hf _ _ h; omega) k]
      simp [h1]

private theorem chain_users {g : Graph} {ops : List Op} (hg : g.nodes = ⟨.placeholder, []⟩ :: ((ops ++ [Op.output]).mapIdx fun i o => ⟨o, [i]⟩)) (i : ℕ) :
    g.users i = if i < ops.length + 1 then 1 else 0 := by
  unfold Graph.users
  rw [hg, List.countP_cons]
  have := countP_mapIdx (ops ++ [.output]) id (fun _ _ h => h) i
  simp only [id] at this
  rw [this]
  simp

private theorem chain_arrives {g : Graph} {ops : List Op} (hg : g.nodes = ⟨.placeholder, []⟩ :: ((ops ++ [Op.output]).mapIdx fun i o => ⟨o, [i]⟩)) {s i : ℕ} (h : g.Arrives s i) :
    s ≤ i ∧ ∀ j, s < j → j ≤ i → ¬ g.Quantises j := by
  induction h with
  | here h => exact ⟨Nat.le_refl _, fun j h1 h2 => by omega⟩
  | @pass i a n hi hp ha h ih =>
    cases i with
    | zero =>
      rw [hg] at hi
      simp only [List.getElem?_cons_zero, Option.some.injEq] at hi
      subst hi
      exact (List.not_mem_nil ha).elim
    | succ i =>
      have := chain_node hg i n hi
      rw [this, List.mem_singleton] at ha
      subst ha
      refine ⟨by omega, fun j h1 h2 => ?_⟩
      rcases Nat.lt_succ_iff_lt_or_eq.mp (Nat.lt_succ_of_le h2) with hj | hj
      · exact ih.2 j h1 (by omega)
      · subst hj
        rintro ⟨n', m, hn', hm, hf⟩
        rw [hi] at hn'
        cases hn'
        unfold Graph.PassesOn at hp
        rw [hm] at hp
        simp only at hp
        rw [hp] at hf
        cases hf

/-- C132: the output of a chain of calls is a plain tensor in every run of the transformed graph, whatever the modules, also if some are called several times. -/
theorem C132_chain_output_is_plain (g : Graph) (hg : g.IsChain) : ∀ quant, g.disableLast.Run quant → ¬ quant (g.nodes.length - 1) := by
  obtain ⟨ops, hops, hnodes⟩ := hg
  have hlen : g.nodes.length = ops.length + 2 := by rw [hnodes]; simp
  have hord : g.Ordered := by
    intro i n hn a ha
    cases i with
    | zero =>
      rw [hnodes] at hn
      simp only [List.getElem?_cons_zero, Option.some.injEq] at hn
      subst hn
      exact (List.not_mem_nil ha).elim
    | succ i =>
      rw [chain_node hnodes i n hn, List.mem_singleton] at ha
      omega
  have hlastnode : g.nodes[ops.length + 1]? = some ⟨.output, [ops.length]⟩ := by
    rw [hnodes, List.getElem?_cons_succ, List.getElem?_mapIdx]
    simp
  have hqlt : ∀ j, g.Quantises j → j < ops.length + 1 := by
    intro j hj
    have h1 := quantises_lt hj
    rcases Nat.lt_or_ge j (ops.length + 1) with h | h
    · exact h
    · have : j = ops.length + 1 := by omega
      subst this
      obtain ⟨n, m, hn, hm, -⟩ := hj
      rw [hlastnode] at hn
      cases hn
      cases hm
  have hidx : g.nodes.length - 1 = ops.length + 1 := by omega
  rw [hidx]
  by_cases hex : ∃ s, g.Arrives s (ops.length + 1)
  · obtain ⟨s, hs⟩ := hex
    have hq := arrives_quantises hs
    refine C132_output_is_plain g hord _ s (by omega) hq ?_ ?_ ?_
    · rw [chain_users hnodes, if_pos (hqlt s hq)]
    · intro j hj hqj
      exact absurd hqj ((chain_arrives hnodes hs).2 j hj (by have := hqlt j hqj; omega))
    · intro c hc
      have h1 := chain_arrives hnodes hs
      have h2 := chain_arrives hnodes hc
      rcases Nat.lt_trichotomy c s with h | h | h
      · exact absurd hq (h2.2 s h h1.1)
      · exact h
      · exact absurd (arrives_quantises hc) (h1.2 c h h2.1)
  · intro quant hr hq
    have hr' : g.Run quant := by
      rcases (C132_at_most_one_module g).2 with h | ⟨m, hm, hm', -, hk⟩
      · rw [← h]; exact hr
      · intro i n hn hqi
        have := hr i n (by rw [(C132_at_most_one_module g).1]; exact hn) hqi
        cases hop : n.op with
        | module k =>
          rw [hop] at this
          simp only at this ⊢
          by_cases hkm : k = m
          · subst hkm; exact Or.inl hm
          · rw [hk k hkm] at this; exact this
        | placeholder => rw [hop] at this; exact this
        | function => rw [hop] at this; exact this
        | output => rw [hop] at this; exact this
    obtain ⟨c, hc, -⟩ := arrives_of_quant g hord quant hr' _ (by omega) hq
    exact hex ⟨c, hc⟩

/-! ## Disagreements -/

/-- A model with two heads. -/
private def twoHeads : Graph := ⟨[⟨.placeholder, []⟩, ⟨.module 0, [0]⟩, ⟨.module 1, [0]⟩, ⟨.output, [1, 2]⟩], fun _ => some true⟩

/-- Disagreement: with two outputs only the last is made plain. -/
theorem C132_two_heads : ∃ g : Graph, g.Ordered ∧ (∀ i, i < 3 → 0 < i → g.users i = 1 ∧ g.Quantises i) ∧ ∃ quant, g.disableLast.Run quant ∧ quant (g.nodes.length - 1) := by
  refine ⟨twoHeads, ?_, ?_, fun i => i = 1 ∨ i = 3, ?_, Or.inr rfl⟩
  · intro i n hn a ha
    rcases i with _ | _ | _ | _ | i <;> simp [twoHeads] at hn <;> subst hn <;> simp at ha <;> omega
  · intro i h1 h2
    rcases i with _ | _ | _ | i
    · omega
    · exact ⟨rfl, _, _, rfl, rfl, rfl⟩
    · exact ⟨rfl, _, _, rfl, rfl, rfl⟩
    · omega
  · have hd : twoHeads.disableLast = { twoHeads with returnQuantTensor := Function.update twoHeads.returnQuantTensor 1 (some false) } := rfl
    rw [hd]
    intro i n hn hq
    rcases hq with rfl | rfl
    · simp [twoHeads] at hn
      subst hn
      exact Or.inl rfl
    · simp [twoHeads] at hn
      subst hn
      exact ⟨1, by simp, Or.inl rfl⟩

/-- A layer whose value is the output and is also read by another call. -/
private def readTwice : Graph := ⟨[⟨.placeholder, []⟩, ⟨.module 0, [0]⟩, ⟨.module 1, [1]⟩, ⟨.output, [1, 2]⟩], fun m => if m = 0 then some true else some false⟩

/-- Disagreement: the output of a layer that is also read elsewhere stays a quant tensor. -/
theorem C132_read_twice : ∃ g : Graph, g.Ordered ∧ g.disableLast = g ∧ ∃ quant, g.disableLast.Run quant ∧ quant (g.nodes.length - 1) := by
  refine ⟨readTwice, ?_, rfl, fun i => i = 1 ∨ i = 3, ?_, Or.inr rfl⟩
  · intro i n hn a ha
    rcases i with _ | _ | _ | _ | i <;> simp [readTwice] at hn <;> subst hn <;> simp at ha <;> omega
  · have hd : readTwice.disableLast = readTwice := rfl
    rw [hd]
    intro i n hn hq
    rcases hq with rfl | rfl
    · simp [readTwice] at hn
      subst hn
      exact Or.inl rfl
    · simp [readTwice] at hn
      subst hn
      exact ⟨1, by simp, Or.inl rfl⟩

/-- A model whose last layer returns plain tensors already. -/
private def plainLast : Graph := ⟨[⟨.placeholder, []⟩, ⟨.module 0, [0]⟩, ⟨.module 1, [1]⟩, ⟨.output, [2]⟩], fun m => if m = 0 then some true else some false⟩

/-- Disagreement: where the last layer returns plain tensors already, a layer inside of the model is made to return plain tensors. -/
theorem C132_inner_layer_changed : ∃ g : Graph, g.IsChain ∧ (∀ quant, g.Run quant → ¬ quant (g.nodes.length - 1)) ∧ g.returnQuantTensor 0 = some true ∧
    g.disableLast.returnQuantTensor 0 = some false ∧ g.nodes[1]?.map Node.op = some (.module 0) ∧ g.nodes[2]?.map Node.args = some [1] := by
  refine ⟨plainLast, ⟨[.module 0, .module 1], by simp, by simp [plainLast]⟩, ?_, rfl, rfl, rfl, rfl⟩
  intro quant hr hq
  obtain ⟨a, ha, hqa⟩ := hr 3 _ rfl hq
  simp at ha
  subst ha
  have := hr 2 _ rfl hqa
  rcases this with h | ⟨h, -⟩
  · exact absurd h (by decide)
  · exact absurd h (by decide)

/-! ## Examples -/

/-- A convolution, a pooling module and a flatten after it: before the transform the output can be a quant tensor, afterwards it cannot. -/
private def exampleChain : Graph := ⟨[⟨.placeholder, []⟩, ⟨.module 0, [0]⟩, ⟨.module 1, [1]⟩, ⟨.function, [2]⟩, ⟨.output, [3]⟩], fun m => if m = 0 then some true else none⟩

example : exampleChain.IsChain ∧ (∃ quant, exampleChain.Run quant ∧ quant 4) ∧ ∀ quant, exampleChain.disableLast.Run quant → ¬ quant 4 := by
  have hc : exampleChain.IsChain := ⟨[.module 0, .module 1, .function], by simp, by simp [exampleChain]⟩
  refine ⟨hc, ⟨fun i => 0 < i, ?_, by omega⟩, C132_chain_output_is_plain exampleChain hc⟩
  intro i n hn hq
  rcases i with _ | _ | _ | _ | _ | i
  · omega
  · simp [exampleChain] at hn; subst hn; exact Or.inl rfl
  · simp [exampleChain] at hn; subst hn; exact Or.inr ⟨rfl, 1, by simp, by omega⟩
  · simp [exampleChain] at hn; subst hn; exact ⟨2, by simp, by omega⟩
  · simp [exampleChain] at hn; subst hn; exact ⟨3, by simp, by omega⟩
  · simp [exampleChain] at hn

/-- A residual block that ends in an addition layer. -/
private def exampleResidual : Graph :=
  ⟨[⟨.placeholder, []⟩, ⟨.module 0, [0]⟩, ⟨.module 1, [1]⟩, ⟨.module 2, [1, 2]⟩, ⟨.output, [3]⟩], fun _ => some true⟩

example : ∀ quant, exampleResidual.disableLast.Run quant → ¬ quant 4 := by
  have hone : ∀ c, exampleResidual.Arrives c 4 → c = 3 := by
    have h3 : ∀ c i, exampleResidual.Arrives c i → i = 3 → c = 3 := by
      intro c i h
      induction h with
      | here h => exact fun h => h
      | pass hi hp ha h ih =>
        rintro rfl
        simp [exampleResidual] at hi
        subst hi
        exact absurd hp (by simp [Graph.PassesOn, exampleResidual])
    intro c h
    cases h with
    | here h =>
      obtain ⟨n, m, hn, hm, -⟩ := h
      simp [exampleResidual] at hn
      subst hn
      cases hm
    | pass hi hp ha h =>
      simp [exampleResidual] at hi
      subst hi
      simp at ha
      exact h3 _ _ h ha
  refine C132_output_is_plain exampleResidual ?_ 4 3 (by decide) ⟨_, _, rfl, rfl, rfl⟩ rfl ?_ hone
  · intro i n hn a ha
    rcases i with _ | _ | _ | _ | _ | i <;> simp [exampleResidual] at hn <;> subst hn <;> simp at ha <;> omega
  · rintro j hj ⟨n, m, hn, hm, -⟩
    rcases j with _ | _ | _ | _ | _ | j
    · omega
    · omega
    · omega
    · omega
    · simp [exampleResidual] at hn; subst hn; cases hm
    · simp [exampleResidual] at hn

end Brevitas.Props
