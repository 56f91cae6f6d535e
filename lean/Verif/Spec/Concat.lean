import Verif.Spec.Network

/-!
# Networks with concatenations
-/

namespace Brevitas.Net

/-- What feeds a concatenation: a layer with that many channels, maybe through layers without weights (`some`), or something else that no region contains (`none`). -/
inductive Branch {K : Type*} (g : Graph K) (store : ℕ → Layer K) : ℕ → Option ℕ → Prop
  | layer (n m : ℕ) (h : (nodeAt g n).op = .module m) : Branch g store n (some (store m).outCh)
  | act (n i : ℕ) (a : Act K) (w : Option ℕ) (h : (nodeAt g n).op = .act a) (hi : (nodeAt g n).ins = [i]) (hb : Branch g store i w) : Branch g store n w
  | input (n k : ℕ) (h : (nodeAt g n).op = .input k) : Branch g store n none
  | other (n : ℕ) (f : Signal K → Signal K) (h : (nodeAt g n).op = .other f) : Branch g store n none

/-- Networks with residual sums and concatenations, where every layer is used at one place and there are no products and no sums with constants. `part` divides the nodes into parts: a layer without weights or
a sum lies in the part of its operands. The operands of a concatenation and its result are in different parts, and no part is next to two concatenations. An operand of a concatenation is a layer, or is
fed by a layer through layers without weights, in a part without sums. -/
structure Concats {K : Type*} (g : Graph K) (store : ℕ → Layer K) (part : ℕ → ℕ) : Prop where
  ordered : ∀ n, ∀ i ∈ (nodeAt g n).ins, i < n
  unary : ∀ n < g.length, (∀ k, (nodeAt g n).op ≠ .add k) → (∀ k, (nodeAt g n).op ≠ .input k) → (∀ s, (nodeAt g n).op ≠ .cat s) → ∃ i, (nodeAt g n).ins = [i]
  noMul : ∀ n, (nodeAt g n).op ≠ .mul
  noConst : ∀ n k, (nodeAt g n).op = .add k → k = none
  once : ∀ n n' m, (nodeAt g n).op = .module m → (nodeAt g n').op = .module m → n = n'
  same : ∀ n, ((∃ a, (nodeAt g n).op = .act a) ∨ ∃ k, (nodeAt g n).op = .add k) → ∀ i ∈ (nodeAt g n).ins, part i = part n
  distinct : ∀ c s, (nodeAt g c).op = .cat s → (part c :: (nodeAt g c).ins.map part).Nodup
  apart : ∀ c c' s s', (nodeAt g c).op = .cat s → (nodeAt g c').op = .cat s' → ∀ p, p ∈ part c :: (nodeAt g c).ins.map part → p ∈ part c' :: (nodeAt g c').ins.map part → c = c'
  branch : ∀ c s, (nodeAt g c).op = .cat s → List.Forall₂ (fun u n => (Branch g store u (some n) ∨ Branch g store u none) ∧
    ((∃ m, (nodeAt g u).op = .module m) ∨ ∀ n k, part n = part u → (nodeAt g n).op ≠ .add k)) (nodeAt g c).ins s

end Brevitas.Net
