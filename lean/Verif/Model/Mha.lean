import Verif.Spec.Broadcast
import Verif.Spec.Attention

/-!
# Quantised multi-head attention (`src/brevitas/nn/quant_mha.py`)

Tensors have a shape (`Verif/Spec/Tensor.lean`); `none` is an exception.  Quantisers of activations are functions of one element, weights and
biases are those the layer uses once quantised.  Dropout is off (evaluation).  Names of dimensions are modelled apart.
-/

namespace Brevitas.Mha

open Finset NdTensor

/-- A linear layer, nn/quant_linear.py: input quantiser, weight and bias after quantisation, output quantiser. -/
structure Linear where
  inFeatures : ℕ
  outFeatures : ℕ
  inQ : ℝ → ℝ := id
  w : ℕ → ℕ → ℝ
  b : ℕ → ℝ := fun _ => 0
  outQ : ℝ → ℝ := id

/-- One row through a linear layer. -/
noncomputable def Linear.row (L : Linear) (x : ℕ → ℝ) (o : ℕ) : ℝ :=
  L.outQ (∑ i ∈ range L.inFeatures, L.w o i * L.inQ (x i) + L.b o)

/-- `torch.nn.functional.linear` on the last of three dimensions. -/
noncomputable def Linear.forward (L : Linear) (x : NdTensor ℝ) : Option (NdTensor ℝ) :=
  match x.shape with
  | [a, b, n] =>
    if n = L.inFeatures then
      some ⟨[a, b, L.outFeatures], fun idx => L.row (fun i => x.data [idx.getD 0 0, idx.getD 1 0, i]) (idx.getD 2 0)⟩
    else none
  | _ => none

/-- The input projections, quant_mha.py:128-175: packed in one layer, or three layers. -/
inductive InProj
  | packed (l : Linear)
  | separate (q k v : Linear)

/-- A mask: boolean, or a float added to the scores.  Byte masks are converted to boolean ones (quant_mha.py:442-448). -/
inductive Mask
  | bool (t : NdTensor Bool)
  | float (t : NdTensor (WithBot ℝ))

/-- The shape of a mask. -/
def Mask.shape : Mask → List ℕ
  | .bool t => t.shape
  | .float t => t.shape

/-- Some function of tensors on either kind of mask. -/
def Mask.map (f : ∀ {K : Type}, NdTensor K → Option (NdTensor K)) : Mask → Option Mask
  | .bool t => (f t).map .bool
  | .float t => (f t).map .float

/-- The module. -/
structure Module where
  embedDim : ℕ
  numHeads : ℕ
  inProj : InProj
  outProj : Linear
  biasKV : Option ((ℕ → ℝ) × (ℕ → ℝ)) := none
  addZeroAttn : Bool := false
  batchFirst : Bool := false
  quant : Spec.Elementwise := {}

/-- `Tensor.unsqueeze(k)`. -/
def unsqueeze {K : Type*} (k : ℕ) (x : NdTensor K) : NdTensor K := ⟨x.shape.insertIdx k 1, fun idx => x.data (idx.eraseIdx k)⟩

/-- `Tensor.squeeze(k)`. -/
def squeeze {K : Type*} (k : ℕ) (x : NdTensor K) : NdTensor K :=
  if x.shape.getD k 0 = 1 then ⟨x.shape.eraseIdx k, fun idx => x.data (idx.insertIdx k 0)⟩ else x

/-- `F.pad(mask, (0, 1))`, with `zero` for the new column. -/
def padColumn {K : Type*} (zero : K) (x : NdTensor K) : NdTensor K :=
  let k := x.shape.length - 1
  ⟨x.shape.set k (x.shape.getD k 0 + 1), fun idx => if idx.getD k 0 < x.shape.getD k 0 then x.data idx else zero⟩

/-- `F.pad(mask, (0, 1))` of either kind of mask. -/
def Mask.padColumn : Mask → Mask
  | .bool t => .bool (Mha.padColumn false t)
  | .float t => .float (Mha.padColumn 0 t)

/-- `mha_shape_check`, quant_mha.py:231-283: whether the input is batched. -/
def shapeCheck (numHeads : ℕ) (query key value : NdTensor ℝ) (kpm attn : Option Mask) : Option Bool :=
  if query.shape.length = 3 then
    if key.shape.length = 3 ∧ value.shape.length = 3 ∧ (∀ m ∈ kpm, m.shape.length = 2) ∧
      (∀ m ∈ attn, m.shape.length = 2 ∨ m.shape.length = 3) then some true else none
  else if query.shape.length = 2 then
    if key.shape.length = 2 ∧ value.shape.length = 2 ∧ (∀ m ∈ kpm, m.shape.length = 1) ∧
      (∀ m ∈ attn, m.shape.length = 2 ∨ (m.shape.length = 3 ∧ m.shape = [numHeads, query.shape.getD 0 0, key.shape.getD 0 0]))
    then some false else none
  else none

/-- `chunk(3, dim=-1)[i]` of a tensor with three dimensions. -/
def chunk3 (i : ℕ) (x : NdTensor ℝ) : NdTensor ℝ :=
  let size := (x.shape.getD 2 0 + 2) / 3
  ⟨x.shape.set 2 size, fun idx => x.data [idx.getD 0 0, idx.getD 1 0, i * size + idx.getD 2 0]⟩

/-- The projections, quant_mha.py:407-438: `samePtr` tells whether the three inputs are the same tensor. -/
noncomputable def InProj.project (p : InProj) (samePtr : Bool) (query key value : NdTensor ℝ) :
    Option (NdTensor ℝ × NdTensor ℝ × NdTensor ℝ) :=
  match p with
  | .packed l => if samePtr then (l.forward query).map fun y => (chunk3 0 y, chunk3 1 y, chunk3 2 y) else none
  | .separate lq lk lv =>
    (lq.forward query).bind fun q => (lk.forward key).bind fun k => (lv.forward value).map fun v => (q, k, v)

/-- The attention mask with three dimensions, quant_mha.py:440-463. -/
def prepMask (bsz heads tgt src : ℕ) (m : Mask) : Option Mask :=
  if m.shape.length = 2 then
    if m.shape = [tgt, src] then m.map fun t => some (unsqueeze 0 t) else none
  else if m.shape.length = 3 then
    if m.shape = [bsz * heads, tgt, src] then some m else none
  else none

/-- The attention mask, if there is one. -/
def prepAttn (bsz heads tgt src : ℕ) : Option Mask → Option (Option Mask)
  | none => some none
  | some m => (prepMask bsz heads tgt src m).map some

/-- `key_padding_mask.unsqueeze(0)` of a single sequence, quant_mha.py:376-377. -/
def prepPad (isBatched : Bool) : Option Mask → Option (Option Mask)
  | none => some none
  | some m => if isBatched then some (some m) else (m.map fun t => some (unsqueeze 0 t)).map some

/-- `q.contiguous().view(len, bsz * num_heads, head_dim).transpose(0, 1)`, quant_mha.py:482-500. -/
def splitHeads (bsz heads headDim : ℕ) (x : NdTensor ℝ) : Option (NdTensor ℝ) :=
  (x.reshape [x.shape.getD 0 0, bsz * heads, headDim]).bind fun y => y.transpose 0 1

/-- `expand`, to a given shape. -/
def expand {K : Type*} (shape : List ℕ) (x : NdTensor K) : Option (NdTensor K) :=
  if bcShape x.shape shape = some shape then some ⟨shape, fun idx => x.data (bcIndex x.shape idx)⟩ else none

/-- The key padding mask for every head, quant_mha.py:516-520. -/
def padMask (bsz heads src : ℕ) (m : Mask) : Option Mask :=
  if m.shape = [bsz, src] then
    m.map fun t => ((t.reshape [bsz, 1, 1, src]).bind (expand [bsz, heads, 1, src])).bind fun t => t.reshape [bsz * heads, 1, src]
  else none

/-- An element-wise function of two tensors of different types, with broadcasting. -/
def bcOp2 {A B C : Type*} (op : A → B → C) (a : NdTensor A) (b : NdTensor B) : Option (NdTensor C) :=
  (bcShape a.shape b.shape).map fun shape => ⟨shape, fun idx => op (a.data (bcIndex a.shape idx)) (b.data (bcIndex b.shape idx))⟩

open Classical in
/-- The two masks merged, quant_mha.py:521-526.  `logical_or` takes a float that is not zero for true; `masked_fill` raises if the padding
mask is not boolean. -/
noncomputable def mergeMasks (attn : Option Mask) (kpm : Mask) : Option Mask :=
  match attn, kpm with
  | none, m => some m
  | some (.bool a), .bool k => (bcOp2 (fun x y => x || y) a k).map .bool
  | some (.bool a), .float k => (bcOp2 (fun x y => x || decide (y ≠ 0)) a k).map .bool
  | some (.float a), .bool k => (bcOp2 (fun x y => if y then (⊥ : WithBot ℝ) else x) a k).map .float
  | some (.float _), .float _ => none

/-- A boolean mask as a float one, quant_mha.py:528-532. -/
def Mask.toFloat : Mask → NdTensor (WithBot ℝ)
  | .bool t => ⟨t.shape, fun idx => if t.data idx then ⊥ else 0⟩
  | .float t => t

/-- `torch.bmm`. -/
noncomputable def bmm (a b : NdTensor ℝ) : Option (NdTensor ℝ) :=
  match a.shape, b.shape with
  | [p, n, m], [p', m', l] =>
    if p = p' ∧ m = m' then
      some ⟨[p, n, l], fun idx => ∑ i ∈ range m, a.data [idx.getD 0 0, idx.getD 1 0, i] * b.data [idx.getD 0 0, i, idx.getD 2 0]⟩
    else none
  | _, _ => none

/-- The scores, quant_mha.py:542-553: `baddbmm` with a mask, `bmm` without. -/
noncomputable def scores (mask : Option (NdTensor (WithBot ℝ))) (q kt : NdTensor ℝ) : Option (NdTensor (WithBot ℝ)) :=
  (bmm q kt).bind fun y =>
    match mask with
    | none => some ⟨y.shape, fun idx => (y.data idx : WithBot ℝ)⟩
    | some m => (expand y.shape m).map fun m => ⟨y.shape, fun idx => m.data idx + (y.data idx : WithBot ℝ)⟩

/-- `F.softmax(x, dim=-1)` of a tensor with three dimensions. -/
noncomputable def softmaxLast (x : NdTensor (WithBot ℝ)) : NdTensor ℝ :=
  ⟨x.shape, fun idx => Spec.softmax (x.shape.getD 2 0) (fun s => x.data [idx.getD 0 0, idx.getD 1 0, s]) (idx.getD 2 0)⟩

/-- Keys and values with the learned extra position, quant_mha.py:465-479: the biases are repeated over the batch. -/
noncomputable def addBias (bsz embedDim : ℕ) (bias : Option ((ℕ → ℝ) × (ℕ → ℝ))) (k v : NdTensor ℝ) (attn kpm : Option Mask) :
    Option (NdTensor ℝ × NdTensor ℝ × Option Mask × Option Mask) :=
  match bias with
  | none => some (k, v, attn, kpm)
  | some (bk, bv) =>
    (NdTensor.cat 0 [k, ⟨[1, bsz, embedDim], fun idx => bk (idx.getD 2 0)⟩]).bind fun k =>
      (NdTensor.cat 0 [v, ⟨[1, bsz, embedDim], fun idx => bv (idx.getD 2 0)⟩]).map fun v =>
        (k, v, attn.map Mask.padColumn, kpm.map Mask.padColumn)

/-- The position of zeros, quant_mha.py:502-510. -/
noncomputable def addZero (flag : Bool) (rows headDim : ℕ) (k v : NdTensor ℝ) (attn kpm : Option Mask) :
    Option (NdTensor ℝ × NdTensor ℝ × Option Mask × Option Mask) :=
  if flag then
    (NdTensor.cat 1 [k, ⟨[rows, 1, headDim], fun _ => 0⟩]).bind fun k =>
      (NdTensor.cat 1 [v, ⟨[rows, 1, headDim], fun _ => 0⟩]).map fun v =>
        (k, v, attn.map Mask.padColumn, kpm.map Mask.padColumn)
  else some (k, v, attn, kpm)

/-- The mask added to the scores, quant_mha.py:515-532. -/
noncomputable def finalMask (bsz heads src : ℕ) (attn kpm : Option Mask) : Option (Option (NdTensor (WithBot ℝ))) :=
  match kpm with
  | none => some (attn.map Mask.toFloat)
  | some m => (padMask bsz heads src m).bind fun m => (mergeMasks attn m).map fun m => some m.toFloat

/-- Scaled dot-product attention, quant_mha.py:542-568: the attention weights, and the output of all the heads with the shape
of the query. -/
noncomputable def attend (f : Spec.Elementwise) (tgt bsz embedDim : ℕ) (mask : Option (NdTensor (WithBot ℝ))) (q k v : NdTensor ℝ) :
    Option (NdTensor ℝ × NdTensor ℝ) :=
  let qs := q.map fun x => f.q (x / Real.sqrt (q.shape.getD 2 0))
  (k.transpose 1 2).bind fun kt =>
    (scores mask qs (kt.map f.k)).bind fun s =>
      let w := (softmaxLast (s.map f.score)).map f.weight
      (bmm w (v.map f.v)).bind fun o =>
        (o.transpose 0 1).bind fun o => (o.reshape [tgt, bsz, embedDim]).map fun o => (w, o)

/-- The weights returned, quant_mha.py:580-595. -/
noncomputable def returnedWeights (needWeights average isBatched : Bool) (bsz heads tgt src : ℕ) (w : NdTensor ℝ) :
    Option (Option (NdTensor ℝ)) :=
  if needWeights then
    (w.reshape [bsz, heads, tgt, src]).map fun w =>
      let w : NdTensor ℝ := if average then
          ⟨[bsz, tgt, src], fun idx => (∑ h ∈ range heads, w.data [idx.getD 0 0, h, idx.getD 1 0, idx.getD 2 0]) / heads⟩
        else w
      some (if isBatched then w else squeeze 0 w)
  else some none

/-- The part of `multi_head_attention` after the checks, quant_mha.py:402-595, for inputs with three dimensions. -/
noncomputable def Module.body (M : Module) (samePtr isBatched needWeights average : Bool) (query key value : NdTensor ℝ)
    (kpm attn : Option Mask) : Option (NdTensor ℝ × Option (NdTensor ℝ)) :=
  let tgt := query.shape.getD 0 0
  let bsz := query.shape.getD 1 0
  let src := key.shape.getD 0 0
  let headDim := M.embedDim / M.numHeads
  (M.inProj.project samePtr query key value).bind fun (q, k, v) =>
  (prepAttn bsz M.numHeads tgt src attn).bind fun attn =>
  (addBias bsz M.embedDim M.biasKV k v attn kpm).bind fun (k, v, attn, kpm) =>
  (splitHeads bsz M.numHeads headDim q).bind fun q =>
  (splitHeads bsz M.numHeads headDim k).bind fun k =>
  (splitHeads bsz M.numHeads headDim v).bind fun v =>
  (addZero M.addZeroAttn (bsz * M.numHeads) headDim k v attn kpm).bind fun (k, v, attn, kpm) =>
  let src := k.shape.getD 1 0
  (finalMask bsz M.numHeads src attn kpm).bind fun mask =>
  (attend M.quant tgt bsz M.embedDim mask q k v).bind fun (w, o) =>
  (M.outProj.forward o).bind fun o =>
  (returnedWeights needWeights average isBatched bsz M.numHeads tgt src w).map fun w =>
    (if isBatched then o else squeeze 1 o, w)

/-- `multi_head_attention`, quant_mha.py:285-595.  `use_separate_proj_weight` is never passed by `forward`, so that keys and values must have
the same shape. -/
noncomputable def Module.multiHeadAttention (M : Module) (samePtr needWeights average : Bool) (query key value : NdTensor ℝ)
    (kpm attn : Option Mask) : Option (NdTensor ℝ × Option (NdTensor ℝ)) :=
  (shapeCheck M.numHeads query key value kpm attn).bind fun isBatched =>
    let query := if isBatched then query else unsqueeze 1 query
    let key := if isBatched then key else unsqueeze 1 key
    let value := if isBatched then value else unsqueeze 1 value
    (prepPad isBatched kpm).bind fun kpm =>
    if query.shape.getD 2 0 ≠ M.embedDim then none
    else if M.numHeads = 0 ∨ M.embedDim / M.numHeads * M.numHeads ≠ M.embedDim then none
    else if key.shape ≠ value.shape then none
    else M.body samePtr isBatched needWeights average query key value kpm attn

/-- `forward`, quant_mha.py:654-687. -/
noncomputable def Module.forward (M : Module) (samePtr needWeights average : Bool) (query key value : NdTensor ℝ)
    (kpm attn : Option Mask) : Option (NdTensor ℝ × Option (NdTensor ℝ)) :=
  if M.batchFirst ∧ query.shape.length = 3 then
    (query.transpose 1 0).bind fun query => (key.transpose 1 0).bind fun key => (value.transpose 1 0).bind fun value =>
      (M.multiHeadAttention samePtr needWeights average query key value kpm attn).bind fun (o, w) =>
        (o.transpose 1 0).map fun o => (o, w)
  else M.multiHeadAttention samePtr needWeights average query key value kpm attn

end Brevitas.Mha
