import Verif.Model.Conv
import Verif.Model.Elementwise

/-!
# Model of the convolution layers

crates/hodu_nn/src/modules/conv.rs.  The variants for 1, 2 and 3 spatial dimensions are the same text up to the number of
dimensions; `Conv` and `ConvTranspose` are modelled once each.

Left out: gradient bookkeeping, the element type (C74 says which types have the kernels), the random initial values.
-/

namespace Hodu

variable {α : Type}

/-- Shape of the weight of `Conv1D`, `2D`, `3D`, modules/conv.rs:33-34, 108-109, 183-188. -/
def convWeightDims (nsp cin cout k : Nat) : List Nat := cout :: cin :: List.replicate nsp k

/-- Shape of the weight of `ConvTranspose1D`, `2D`, `3D`, modules/conv.rs:264-265, 348-349, 432-437. -/
def convTWeightDims (nsp cin cout k : Nat) : List Nat := cin :: cout :: List.replicate nsp k

/-- The optional bias, `[C]` reshaped to `[1, C, 1, ...]` and added, modules/conv.rs:61-69, 136-144, 215-223, 299-307,
383-391, 471-479. -/
def Tensor.addChannelBias (cores : Nat) (add : α → α → α) (fill : α) (nsp : Nat) (o : Tensor α) :
    Option (Tensor α) → Res (Tensor α)
  | none => .ok o
  | some b => (b.reshape (1 :: b.dims.getD 0 0 :: List.replicate nsp 1)).bind fun r => Tensor.binary cores add fill o r

/-- `forward` of `Conv1D`, `2D`, `3D`, modules/conv.rs:57-70, 132-145, 211-224. -/
def Tensor.convLayer (cores : Nat) (zero : α) (add mul : α → α → α) (fill : α) (nsp : Nat) (x w : Tensor α)
    (b : Option (Tensor α)) (s p d : Nat) : Res (Tensor α) :=
  (x.conv zero add mul nsp w s p d).bind fun o => o.addChannelBias cores add fill nsp b

/-- `forward` of `ConvTranspose1D`, `2D`, `3D`, modules/conv.rs:289-308, 373-392, 461-480. -/
def Tensor.convTLayer (cores : Nat) (zero : α) (add mul : α → α → α) (fill : α) (nsp : Nat) (x w : Tensor α)
    (b : Option (Tensor α)) (s p op d : Nat) : Res (Tensor α) :=
  (x.convT zero add mul nsp w s p op d).bind fun o => o.addChannelBias cores add fill nsp b

end Hodu
