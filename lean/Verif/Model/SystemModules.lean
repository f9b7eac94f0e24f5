import Verif.Model.NeuralModels
import Verif.Model.Systems

/-!
The bundled systems as `nn.Module`s with the signatures of their `forward` methods:
/repo/torchdyn/numerics/systems.py.
-/

namespace Torchdyn

/-- The classes of systems.py. -/
inductive SystemName
  | lorenz | vanDerPol | odeProblem2 | odeProblem3 | odeProblem4 | sineSystem | ltiSystem | fourierSystem
  | stiffFourierSystem | coupledFourierSystem | matMulSystem | matMulBoundedSystem
  deriving DecidableEq

/-- The names of the two parameters of `forward` (after `self`): systems.py:24, 38, 48, 56, 66, 78, 90, 117, 154, 192, 221,
239. None has a default. -/
def SystemName.params : SystemName → List Param
  | .lorenz => [⟨"t", false⟩, ⟨"x", false⟩]
  | .vanDerPol => [⟨"t", false⟩, ⟨"x", false⟩]
  | .odeProblem2 => [⟨"s", false⟩, ⟨"z", false⟩]
  | .odeProblem3 => [⟨"s", false⟩, ⟨"z", false⟩]
  | .odeProblem4 => [⟨"s", false⟩, ⟨"z", false⟩]
  | .sineSystem => [⟨"s", false⟩, ⟨"z", false⟩]
  | .ltiSystem => [⟨"s", false⟩, ⟨"x", false⟩]
  | .fourierSystem => [⟨"s", false⟩, ⟨"x", false⟩]
  | .stiffFourierSystem => [⟨"s", false⟩, ⟨"x", false⟩]
  | .coupledFourierSystem => [⟨"s", false⟩, ⟨"x", false⟩]
  | .matMulSystem => [⟨"s", false⟩, ⟨"x", false⟩]
  | .matMulBoundedSystem => [⟨"s", false⟩, ⟨"x", false⟩]

/-- `**kwargs` in the signature: systems.py:24, 38 only. -/
def SystemName.varKw : SystemName → Bool
  | .lorenz => true
  | .vanDerPol => true
  | _ => false

/-- The `forward` method of a system, given the function `g` it computes from its first two parameters (the functions
themselves are those of `Verif.Model.Systems`; the counter of `VanDerPol` is left out). States of another width than `w`
are reported as `RuntimeError`. -/
noncomputable def SystemName.forward {A β : Type} {w : Nat} (s : SystemName)
    (g : ℝ → (Fin w × β → ℝ) → (Fin w × β → ℝ)) : PyFn ℝ (β → ℝ) A where
  params := s.params
  varKw := s.varKw
  body _ env :=
    match env.map Prod.snd with
    | .time t :: .state x :: _ =>
      if h : x.length = w then .ok (columns (g t (fun p => x.get (p.1.cast h.symm) p.2)))
      else .error PyErr.runtimeError
    | _ => .error PyErr.typeError

/-- The system as an object: a module whose submodules (linear layers, activations) have none of the attributes `t`,
`trace_estimator`, `_control`; `subs` is their number (the system itself included). -/
noncomputable def SystemName.obj {A β : Type} {w : Nat} (s : SystemName) (subs : Nat)
    (g : ℝ → (Fin w × β → ℝ) → (Fin w × β → ℝ)) : Obj ℝ (β → ℝ) A :=
  .module (s.forward g) (List.replicate subs ⟨none, false, none⟩)

/-- problems.py:77, 140-159: `ODEProblem(vector_field, …)` called on `(x, t_span)`; the field is the standardized one. -/
noncomputable def odeProblemSolve {A β : Type} [Fintype β] (fuel : Nat) (empty : A) (isEmpty : A → Bool) {w : Nat}
    (vf : Obj ℝ (β → ℝ) A) (cfg : NeuralOdeCfg A (Fin w × β)) (sensalg : String) (x : Fin w × β → ℝ) (tSpan saveAt : List ℝ)
    (args : A) : Except PyErr (Option (List ℝ × List (Fin w × β → ℝ))) :=
  odeProblemOdeint fuel sensalg ((standardize vf).batchField empty w) x tSpan cfg.solver cfg.atol cfg.rtol cfg.useInterp
    saveAt args isEmpty empty

end Torchdyn
