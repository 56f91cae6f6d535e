import Verif.Model.FusedAttn

/-!
# The attention layer before rewriting

Query, key and value come from three linear layers: the query from the hidden states, key and value from the states of the encoder if there are any and from the hidden
states otherwise.
-/

namespace Brevitas.FusedAttn

variable {K : Type} [Field K]

/-- A linear layer without bias: each output feature is the product of a row of the weight with the token. -/
def Spec.linear (w : Mat K) (x : List K) : List K := w.map fun r => dot r x

/-- The layer before rewriting, without biases. -/
def Spec.attention {Out : Type} (core : List (Option (Mat K)) → Mat K → Mat K → Mat K → Except Err Out) (wq wk wv : Mat K) (rest : List (Option (Mat K)))
    (hidden : Mat K) (encoder : Option (Mat K)) : Except Err Out :=
  core rest (hidden.map (Spec.linear wq)) ((encoder.getD hidden).map (Spec.linear wk)) ((encoder.getD hidden).map (Spec.linear wv))

end Brevitas.FusedAttn
