import Mathlib.Algebra.Field.Basic
import Mathlib.Algebra.BigOperators.Group.List.Basic
import Mathlib.Data.List.Basic
import Mathlib.Algebra.Order.Floor.Ring
import Mathlib.Algebra.Order.Field.Basic

/-!
# Fused attention projections: `src/brevitas_examples/stable_diffusion/sd_quant/nn.py`

`QuantizableAttention` and the projections of `AttnProcessor` and `AttnProcessor2_0`. The class `Attention` that is rewritten is not part of the repository: what is used of it are
the names and the shapes of its parameters (linear layers `to_q`, `to_k` and `to_v` from the query and the cross-attention dimension to the inner one). A tensor is a list of
rows (a vector is one row), a sequence is a list of tokens, a batch has one element. What follows the projections is the same code for both and is an arbitrary function here.
LoRA layers and `norm_cross` are not modelled.
-/

namespace Brevitas.FusedAttn

variable {K : Type} [Field K]

/-- Exceptions. -/
inductive Err where
  | keyError
  | runtimeError
  | attributeError
  | assertionError
  | valueError
deriving DecidableEq, Repr

/-- Names of parameters; `rest` are those of the output projection and of the norms. -/
inductive Key where
  | qW | kW | vW | qB | kB | vB
  | qkvW | qkvB | kvW | kvB
  | rest (i : ℕ)
deriving DecidableEq, Repr

abbrev Mat (K : Type) := List (List K)

/-- A state dict, or the parameters of a module. -/
abbrev Dict (K : Type) := List (Key × Mat K)

/-- `d.get(k)` -/
def get (d : Dict K) (k : Key) : Option (Mat K) := (d.find? fun e => e.1 = k).map Prod.snd

/-- `d[k]` -/
def getItem (d : Dict K) (k : Key) : Except Err (Mat K) :=
  match get d k with
  | some m => .ok m
  | none => .error .keyError

/-- `del d[k]` -/
def del (d : Dict K) (k : Key) : Dict K := d.filter fun e => e.1 ≠ k

/-- `d[k] = m`; the order of the dict plays no role. -/
def set (d : Dict K) (k : Key) (m : Mat K) : Dict K := (k, m) :: del d k

/-- Arguments of the constructor that matter: `query_dim`, `cross_attention_dim`, `inner_dim`, `bias`, and the shapes of the other parameters. -/
structure Config where
  query : ℕ
  cross : ℕ
  inner : ℕ
  bias : Bool
  rest : List (ℕ × ℕ)

/-- Shapes of parameters, nn.py:86-103. -/
def Config.shape (c : Config) : Key → ℕ × ℕ
  | .qW => (c.inner, c.query)
  | .kW | .vW => (c.inner, c.cross)
  | .qB | .kB | .vB => (1, c.inner)
  | .qkvW => (3 * c.inner, c.query)
  | .qkvB => (1, 3 * c.inner)
  | .kvW => (2 * c.inner, c.cross)
  | .kvB => (1, 2 * c.inner)
  | .rest i => c.rest.getD i (0, 0)

def Config.restKeys (c : Config) : List Key := (List.range c.rest.length).map .rest

/-- Parameters of an `Attention`. -/
def Config.originalKeys (c : Config) : List Key := [.qW, .kW, .vW] ++ (if c.bias then [.qB, .kB, .vB] else []) ++ c.restKeys

/-- `hasattr(self, 'to_qkv')`: nn.py:85, `self.to_q.weight.shape == self.to_k.weight.shape`. -/
def Config.hasQkv (c : Config) : Bool := c.shape .qW = c.shape .kW

/-- Parameters of a `QuantizableAttention`, nn.py:85-104. -/
def Config.fusedKeys (c : Config) : List Key :=
  if c.hasQkv then [.qkvW] ++ (if c.bias then [.qkvB] else []) ++ c.restKeys
  else [.qW, .kvW] ++ (if c.bias then [.qB, .kvB] else []) ++ c.restKeys

/-- `torch.cat(…, dim=0)` of matrices. -/
def cat (ms : List (Mat K)) : Except Err (Mat K) :=
  let cols := (ms.flatten.headD []).length
  if ∀ r ∈ ms.flatten, r.length = cols then .ok ms.flatten else .error .runtimeError

/-- `QuantizableAttention.load_state_dict`, nn.py:106-121: what happens to the caller's dict before it is loaded. -/
def convert (c : Config) (d : Dict K) : Except Err (Dict K) :=
  if c.hasQkv && (get d .qW).isSome then do
    let q ← getItem d .qW
    let k ← getItem d .kW
    let v ← getItem d .vW
    let w ← cat [q, k, v]
    let d := set d .qkvW w
    .ok (del (del (del d .qW) .kW) .vW)
  else if !c.hasQkv && (get d .kW).isSome then do
    let k ← getItem d .kW
    let v ← getItem d .vW
    let w ← cat [k, v]
    let d := set d .kvW w
    .ok (del (del d .kW) .vW)
  else .ok d

def hasShape (m : Mat K) (s : ℕ × ℕ) : Bool := m.length = s.1 && m.all fun r => r.length = s.2

/-- `torch.nn.Module.load_state_dict` with `strict=True` of a module with the given parameters: missing and unexpected keys and other shapes raise. (PyTorch loads what it can
before it raises; the module is not looked at afterwards here.) -/
def loadStrict (c : Config) (keys : List Key) (d : Dict K) : Except Err (Dict K) :=
  if (keys.all fun k => (get d k).isSome) && (d.all fun e => e.1 ∈ keys) && d.all fun e => hasShape e.2 (c.shape e.1) then
    .ok (keys.map fun k => (k, (get d k).getD []))
  else .error .runtimeError

/-- `QuantizableAttention.load_state_dict`, nn.py:106-122. -/
def load (c : Config) (d : Dict K) : Except Err (Dict K) := do
  let d ← convert c d
  loadStrict c c.fusedKeys d

def dot (x y : List K) : K := (List.zipWith (· * ·) x y).sum

/-- A linear layer on one token. -/
def linear1 (w : Mat K) (bias : Option (Mat K)) (x : List K) : List K :=
  let y := w.map fun r => dot r x
  match bias with
  | none => y
  | some b => List.zipWith (· + ·) y b.flatten

/-- A linear layer of the module on a sequence of tokens with `n` features. -/
def linear (n : ℕ) (p : Dict K) (weight bias : Key) (xs : Mat K) : Except Err (Mat K) :=
  match get p weight with
  | none => .error .attributeError
  | some w => if xs.all fun x => x.length = n then .ok (xs.map (linear1 w (get p bias))) else .error .runtimeError

/-- `chunk(n, dim=-1)` of one token. -/
def chunk (n : ℕ) (x : List K) : List (List K) :=
  let size := (x.length + n - 1) / n
  (List.range ((x.length + size - 1) / size)).map fun i => (x.drop (i * size)).take size

/-- Unpacking into three names. -/
def unpack3 : List (List K) → Except Err (List K × List K × List K)
  | [a, b, c] => .ok (a, b, c)
  | _ => .error .valueError

/-- Unpacking into two names. -/
def unpack2 : List (List K) → Except Err (List K × List K)
  | [a, b] => .ok (a, b)
  | _ => .error .valueError

/-- `query, key, value = ….chunk(3, dim=-1)` -/
def chunk3 (xs : Mat K) : Except Err (Mat K × Mat K × Mat K) := do
  let ys ← xs.mapM fun x => unpack3 (chunk 3 x)
  .ok (ys.map (·.1), ys.map (·.2.1), ys.map (·.2.2))

/-- `key, value = ….chunk(2, dim=-1)` -/
def chunk2 (xs : Mat K) : Except Err (Mat K × Mat K) := do
  let ys ← xs.mapM fun x => unpack2 (chunk 2 x)
  .ok (ys.map (·.1), ys.map (·.2))

/-- `AttnProcessor.__call__`, nn.py:414-423, and `AttnProcessor2_0.__call__`, 500-509: query, key and value. -/
def project (c : Config) (p : Dict K) (hidden : Mat K) (encoder : Option (Mat K)) : Except Err (Mat K × Mat K × Mat K) :=
  match encoder with
  | none => do
    let y ← linear c.query p .qkvW .qkvB hidden
    chunk3 y
  | some e =>
    if c.hasQkv then .error .assertionError
    else do
      let q ← linear c.query p .qW .qB hidden
      let kv ← linear c.cross p .kvW .kvB e
      let kv ← chunk2 kv
      .ok (q, kv.1, kv.2)

/-- The layer: what follows the projections is `core`, of the other parameters and of query, key and value. -/
def forward {Out : Type} (core : List (Option (Mat K)) → Mat K → Mat K → Mat K → Except Err Out) (c : Config) (p : Dict K) (hidden : Mat K) (encoder : Option (Mat K)) :
    Except Err Out := do
  let qkv ← project c p hidden encoder
  core (c.restKeys.map (get p)) qkv.1 qkv.2.1 qkv.2.2

/-- `dim_head=lambda module: math.ceil(1 / (module.scale ** 2))`, stable_diffusion/main.py:196, in exact arithmetic. -/
def dimHead {R : Type*} [Field R] [LinearOrder R] [FloorRing R] (scale : R) : ℤ := ⌈1 / scale ^ 2⌉

end Brevitas.FusedAttn
