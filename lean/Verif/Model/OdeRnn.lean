import Verif.Model.MultipleShooting

/-!
`HybridNeuralDE`, /repo/torchdyn/models/hybrid.py:25-63. The module cannot be imported as it stands (`LSDEFunc` does not exist
in `torchdyn.models`, and `NeuralSDE` is not imported); the class is modelled as written.
-/

namespace Torchdyn

/-- The two kinds of `jump` (hybrid.py:32-40): an `nn.LSTMCell`, or anything called as `jump(x_t, h)`. -/
inductive Jump (X H : Type)
  | cell (jump : X → H → H)
  | lstm (jump : X → H × H → H × H)

/-- hybrid.py:57-63 `_jump_latent`, `_jump_latent_cell`. -/
def Jump.apply {X H : Type} : Jump X H → X → H → H → H × H
  | .cell j, x, h, c => (j x h, c)
  | .lstm j, x, h, c => j x (h, c)

/-- The attributes of a `HybridNeuralDE`; `zero` is the zero tensor of `_init_latent` (hybrid.py:53-55), `out` is applied to
the stack of all hidden states (line 50). -/
structure HybridNeuralDE (X H O : Type) where
  flow : H → H
  jump : Jump X H
  out : List H → List O
  lastOutput : Bool
  reverse : Bool
  zero : H

/-- hybrid.py:46-49: the loop over the sequence, `Y` written in order. -/
def HybridNeuralDE.loop {X H O : Type} (M : HybridNeuralDE X H O) : List X → H → H → List H
  | [], _, _ => []
  | x :: xs, h, c =>
    let (h, c) := M.jump.apply x h c
    let h := M.flow h
    h :: M.loop xs h c

/-- hybrid.py:42-51 `forward`: `x[0]` in `_init_latent` raises on an empty sequence; `reverse` reads `x_t` before it is
assigned. The result is the stack or its last entry. -/
def HybridNeuralDE.forward {X H O : Type} (M : HybridNeuralDE X H O) (x : List X) : Except PyErr (List O ⊕ O) := do
  let _ ← getItem x 0
  if M.reverse then throw PyErr.unboundLocalError
  let Y := M.out (M.loop x M.zero M.zero)
  if M.lastOutput then
    let y ← getLastItem Y
    pure (.inr y)
  else pure (.inl Y)

end Torchdyn
