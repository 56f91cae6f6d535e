import Verif.Model.InferMode

/-! # Words for `quant_inference_mode` -/

namespace Brevitas.InferMode

open Brevitas.ExportRun (Net)

variable {H C : Type*}

/-- A module of the model. -/
def In (n : Net) (i : ℕ) : Prop := i ∈ n.tree.modules

/-- A module of the model that inference mode switches over: a quantisation proxy or a quantised recurrent layer. -/
def Covered (n : Net) (i : ℕ) : Prop := In n i ∧ ((n.info i).kind = .proxy ∨ (n.info i).kind = .recurrent) ∧ (n.info i).exportable = true

/-- A new context object, made for inference mode. -/
def Fresh (c : ℕ) (s : State H C) : Prop := (s.ctxs c).enabled = true ∧ (s.ctxs c).hookList = [] ∧ ∀ i, (s.ctxs c).saved i = none

/-- One of the calls inside the block gets through its forward pass. -/
def Forwarded (n : Net) (c : ℕ) (ws : List (World H C)) (s : State H C) : Prop :=
  ∃ pre w post, ws = pre ++ w :: post ∧ (w.forward (calls n pre (enter n c s))).2 = true

/-- None of the calls gets through its forward pass. -/
def NeverForwarded (n : Net) (ws : List (World H C)) (s : State H C) : Prop :=
  ∀ pre w post, ws = pre ++ w :: post → (w.forward (calls n pre s)).2 = false

end Brevitas.InferMode
