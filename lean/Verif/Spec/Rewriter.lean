import Verif.Model.Rewriter

/-!
# Options of layers
-/

namespace Brevitas.Rewriter

variable {V : Type}

/-- The module that lambdas see: the bias is among its variables. -/
def Spec.seen (old : Old V) : Old V := { old with vars := moduleAttributes old }

/-- The options of a convolution, under their names. -/
def Spec.convOptions (o : ConvOptions V) : List (String × Arg V) :=
  [("in_channels", .data o.inChannels), ("out_channels", .data o.outChannels), ("kernel_size", .data o.kernelSize), ("stride", .data o.stride), ("padding", .data o.padding),
    ("dilation", .data o.dilation), ("groups", .data o.groups), ("padding_mode", .data o.paddingMode)]

end Brevitas.Rewriter
