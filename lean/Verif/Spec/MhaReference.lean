import Verif.Model.Mha

/-!
# What a multi-head attention module is asked to compute

Reads the parameters of a module (`Verif/Model/Mha.lean`) and uses none of its functions but one row of a linear layer.
-/

namespace Brevitas.Mha

open Finset

/-- Projections of one position: packed projections have the rows of queries, keys and values one after the other. -/
noncomputable def Module.queryRow (M : Module) (x : ℕ → ℝ) (e : ℕ) : ℝ :=
  match M.inProj with
  | .packed l => l.row x e
  | .separate l _ _ => l.row x e

noncomputable def Module.keyRow (M : Module) (x : ℕ → ℝ) (e : ℕ) : ℝ :=
  match M.inProj with
  | .packed l => l.row x (M.embedDim + e)
  | .separate _ l _ => l.row x e

noncomputable def Module.valueRow (M : Module) (x : ℕ → ℝ) (e : ℕ) : ℝ :=
  match M.inProj with
  | .packed l => l.row x (2 * M.embedDim + e)
  | .separate _ _ l => l.row x e

/-- Sizes of the projections for keys and values of `d` features. -/
def Module.Fits (M : Module) (d : ℕ) : Prop :=
  0 < M.numHeads ∧ M.numHeads ∣ M.embedDim ∧
    (match M.inProj with
      | .packed l => d = M.embedDim ∧ l.inFeatures = M.embedDim ∧ l.outFeatures = 3 * M.embedDim
      | .separate lq lk lv => lq.inFeatures = M.embedDim ∧ lq.outFeatures = M.embedDim ∧ lk.inFeatures = d ∧ lk.outFeatures = M.embedDim ∧
          lv.inFeatures = d ∧ lv.outFeatures = M.embedDim) ∧
    M.outProj.inFeatures = M.embedDim

/-- A packed projection is for self-attention: the three tensors are the same one, in memory and in shape. -/
def InProj.Accepts (p : InProj) (samePtr : Bool) (query key value : NdTensor ℝ) : Prop :=
  match p with
  | .packed _ => samePtr = true ∧ key = query ∧ value = query
  | .separate _ _ _ => True

/-- Keys and values of one sequence with the positions the module adds: the learned one, then zeros. -/
def Module.extend (M : Module) (kv : Spec.KeyValues) : Spec.KeyValues :=
  let kv := match M.biasKV with
    | none => kv
    | some (bk, bv) => kv.push bk bv
  if M.addZeroAttn then kv.push (fun _ => 0) (fun _ => 0) else kv

/-- What the attention mask adds to the score of `s` for `t`, in head `h` of sequence `n`. -/
def attnValue (m : Option Mask) (heads n h t s : ℕ) : WithBot ℝ :=
  match m with
  | none => 0
  | some m => if m.shape.length = 2 then m.toFloat.data [t, s] else m.toFloat.data [n * heads + h, t, s]

/-- The three layouts of an input: position and sequence, sequence and position, or a single sequence. -/
inductive Layout
  | seqFirst
  | batchFirst
  | single
  deriving DecidableEq

/-- The index of feature `e` at position `t` of sequence `n`. -/
def Layout.index : Layout → ℕ → ℕ → ℕ → List ℕ
  | .seqFirst, t, n, e => [t, n, e]
  | .batchFirst, t, n, e => [n, t, e]
  | .single, t, _, e => [t, e]

/-- The shape of `B` sequences of `T` positions with `E` features. -/
def Layout.shape : Layout → ℕ → ℕ → ℕ → List ℕ
  | .seqFirst, T, B, E => [T, B, E]
  | .batchFirst, T, B, E => [B, T, E]
  | .single, T, _, E => [T, E]

/-- The layout a module works with: `batch_first` is ignored for a single sequence, which is a batch of one. -/
def Layout.Of (l : Layout) (M : Module) (B : ℕ) : Prop :=
  match l with
  | .seqFirst => M.batchFirst = false
  | .batchFirst => M.batchFirst = true
  | .single => B = 1

/-- What the padding mask adds. -/
def padValue (l : Layout) (m : Option Mask) (n s : ℕ) : WithBot ℝ :=
  match m with
  | none => 0
  | some m => m.toFloat.data (match l with | .single => [s] | _ => [n, s])

/-- The shape of a padding mask. -/
def Layout.padShape (l : Layout) (B S : ℕ) : List ℕ :=
  match l with
  | .single => [S]
  | _ => [B, S]

/-- The index of a weight of sequence `n`: after the sequence comes what `rest` says. -/
def Layout.weightIndex (l : Layout) (n : ℕ) (rest : List ℕ) : List ℕ :=
  match l with
  | .single => rest
  | _ => n :: rest

/-- The projected queries of sequence `n`. -/
noncomputable def Module.queries (M : Module) (l : Layout) (query : NdTensor ℝ) (n t : ℕ) : ℕ → ℝ :=
  M.queryRow fun i => query.data (l.index t n i)

/-- The keys and values of sequence `n`, of length `S`. -/
noncomputable def Module.keyValues (M : Module) (l : Layout) (key value : NdTensor ℝ) (S n : ℕ) : Spec.KeyValues :=
  M.extend ⟨S, fun s => M.keyRow fun i => key.data (l.index s n i), fun s => M.valueRow fun i => value.data (l.index s n i)⟩

/-- What the two masks add: they are added up, and nothing is added at the positions the module adds. -/
def Module.mask (M : Module) (l : Layout) (kpm attn : Option Mask) (S n h t s : ℕ) : WithBot ℝ :=
  if s < S then attnValue attn M.numHeads n h t s + padValue l kpm n s else 0

/-- The attention weights. -/
noncomputable def Module.weights (M : Module) (l : Layout) (query key value : NdTensor ℝ) (kpm attn : Option Mask) (S n h t s : ℕ) : ℝ :=
  Spec.attentionWeight M.quant (M.embedDim / M.numHeads) (M.queries l query n) (M.keyValues l key value S n)
    (M.mask l kpm attn S n) h t s

/-- The output. -/
noncomputable def Module.output (M : Module) (l : Layout) (query key value : NdTensor ℝ) (kpm attn : Option Mask) (S n t : ℕ) : ℕ → ℝ :=
  M.outProj.row (Spec.attentionHeads M.quant (M.embedDim / M.numHeads) (M.queries l query n) (M.keyValues l key value S n)
    (M.mask l kpm attn S n) t)

end Brevitas.Mha
