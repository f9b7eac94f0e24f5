import Verif.Model.Traced

/-!
A `NeuralODE` whose vector field contains a `DataControl` layer, with `sensitivity='autograd'`, inside an autograd graph:
/repo/torchdyn/core/neuralde.py:96-136 and /repo/torchdyn/nn/node_layers.py:74-82. See `Verif.Model.Traced` for the graph.
-/

namespace Torchdyn

variable {Q V U A : Type} [NormedAddCommGroup Q] [NormedSpace ℝ Q] [NormedAddCommGroup V] [NormedSpace ℝ V] [NormedAddCommGroup U]
  [NormedSpace ℝ U]

/-- The vector field of a network that reads the state and the attribute `_control` (node_layers.py:81-82), in the graph: autograd
applies the chain rule to parameters, state and control. -/
noncomputable def tracedControlled (g : Q → ℝ → V → U → V) (q : Q) (u : Traced Q U) (t : ℝ) (y : Traced Q V) : Traced Q V :=
  (g q t y.1 u.1,
    (fderiv ℝ (fun p : Q × V × U => g p.1 t p.2.1 p.2.2) (q, y.1, u.1)).comp
      ((ContinuousLinearMap.id ℝ Q).prod (y.2.prod u.2)))

/-- neuralde.py:118-121: `module._control = x[:, excess_dims:].detach()`; `cols` takes the columns from `excess_dims` on. -/
def controlOf (cols : V →L[ℝ] U) (x : Traced Q V) : Traced Q U := leaf (cols x.1)

/-- neuralde.py:124-136 `NeuralODE.forward` with a fixed-step solver: the control is set from the initial state, then `odeint` is
called inside the graph. -/
noncomputable def controlledForward (g : Q → ℝ → V → U → V) (q : Q) (cols : V →L[ℝ] U) (x : Traced Q V) (tSpan : List ℝ)
    (solver : Solver (Except PyErr) ℝ (Traced Q V) A) (args : A) : Except PyErr (List ℝ × List (Traced Q V)) :=
  odeintFixed (pureField (tracedControlled g q (controlOf cols x))) x tSpan solver [] args

end Torchdyn
