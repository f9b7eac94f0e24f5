import Verif.Model.Sde

/-!
The SDE solvers on tensors with shapes: /repo/torchdyn/numerics/solvers/sde.py and numerics/sdeint.py with the elementwise
operations of torch, which broadcast. In `Verif.Model.Sde` all tensors have the shape of the state.
-/

namespace Torchdyn

/-- A tensor: its shape and its entries by multi-index. -/
structure STensor (K : Type) where
  shape : List Nat
  val : List Nat → K

/-- The shape of the result of an elementwise operation of torch, last axis first: axes of equal length, or of length one, or
missing, are compatible. -/
def broadcastRev : List Nat → List Nat → Option (List Nat)
  | [], t => some t
  | s, [] => some s
  | a :: s, b :: t =>
    if a = b ∨ b = 1 then (broadcastRev s t).map (a :: ·)
    else if a = 1 then (broadcastRev s t).map (b :: ·)
    else none

/-- The shape of the result of an elementwise operation of torch; `none`: the shapes are incompatible. -/
def broadcastShape (s t : List Nat) : Option (List Nat) := (broadcastRev s.reverse t.reverse).map List.reverse

/-- The entry of a tensor of shape `s` that is used for entry `i` of a result of shape `t`. -/
def broadcastIndex (s t i : List Nat) : List Nat :=
  if s = t then i else (List.zipWith (fun n j => if n = 1 then 0 else j) s.reverse i.reverse).reverse

section

variable {K : Type}

/-- An elementwise operation of torch on two tensors: `RuntimeError` when the shapes are incompatible. -/
def STensor.bin (op : K → K → K) (a b : STensor K) : Except PyErr (STensor K) :=
  match broadcastShape a.shape b.shape with
  | none => .error .runtimeError
  | some s => .ok ⟨s, fun i => op (a.val (broadcastIndex a.shape s i)) (b.val (broadcastIndex b.shape s i))⟩

/-- An elementwise operation on one tensor, or with a zero-dimensional one such as `dt`. -/
def STensor.map (op : K → K) (a : STensor K) : STensor K := ⟨a.shape, fun i => op (a.val i)⟩

/-- `torch.stack(sol)`: `RuntimeError` unless all shapes are equal. -/
def stackTensors (sol : List (STensor K)) : Except PyErr (List (STensor K)) :=
  match sol with
  | [] => .ok []
  | y :: ys => if ys.all (fun z => z.shape == y.shape) then .ok (y :: ys) else .error .runtimeError

variable [Field K]

/-- sde.py:30-35 `EulerMaruyama.step`. -/
def eulerMaruyamaShaped (sde : SdeFunc (Except PyErr) K (STensor K)) (bm : K → K → Except PyErr (STensor K))
    (x : STensor K) (t dt : K) : Except PyErr (StepOut (STensor K)) := do
  let nextT := t + dt
  let f ← sde.f t x
  let s ← x.bin (· + ·) (f.map (· * dt))
  let g ← sde.g t x
  let b ← bm t nextT
  let gb ← g.bin (· * ·) b
  let xSol ← s.bin (· + ·) gb
  pure (.three none xSol none)

/-- sde.py:49-60 `EulerHeun.step`. -/
def eulerHeunShaped (sde : SdeFunc (Except PyErr) K (STensor K)) (bm : K → K → Except PyErr (STensor K))
    (x : STensor K) (t dt : K) : Except PyErr (StepOut (STensor K)) := do
  let nextT := t + dt
  let f ← sde.f t x
  let g ← sde.g t x
  let b ← bm t nextT
  let gb ← g.bin (· * ·) b
  let xPrime ← x.bin (· + ·) gb
  let s ← x.bin (· + ·) (f.map (· * dt))
  let g' ← sde.g nextT xPrime
  let gg ← g.bin (· + ·) g'
  let b' ← bm t nextT
  let r ← (gg.map (· * (1 / 2))).bin (· * ·) b'
  let xSol ← s.bin (· + ·) r
  pure (.three none xSol none)

/-- sde.py:78-90 `MilsteinBase.step`; `vTerm` is the method of the subclass, on entries. `gdg * 1 / (2 * sqrt_dt)` is one
multiplication by a number. -/
def milsteinShaped (sqrt : K → K) (vTerm : K → K → K) (sde : SdeFunc (Except PyErr) K (STensor K))
    (bm : K → K → Except PyErr (STensor K)) (x : STensor K) (t dt : K) : Except PyErr (StepOut (STensor K)) := do
  let nextT := t + dt
  let b ← bm t nextT
  let v := b.map (vTerm · dt)
  let f ← sde.f t x
  let g ← sde.g t x
  let sqrtDt := sqrt dt
  let s ← x.bin (· + ·) (f.map (· * dt))
  let xPrime ← s.bin (· + ·) (g.map (· * sqrtDt))
  let gXPrime ← sde.g t xPrime
  let gdg ← gXPrime.bin (· - ·) g
  let gb ← g.bin (· * ·) b
  let y ← s.bin (· + ·) gb
  let w ← (gdg.map (· * (1 / (2 * sqrtDt)))).bin (· * ·) v
  let xSol ← y.bin (· + ·) w
  pure (.three none xSol none)

/-- The constructors of sde.py, as in `mkSdeSolver`, with the steps on tensors with shapes. -/
def mkSdeSolverShaped (sqrt : K → K) (cls : SdeSolverClass) (sde : SdeFunc (Except PyErr) K (STensor K))
    (bm : K → K → Except PyErr (STensor K)) : Except PyErr (SdeSolver (Except PyErr) K (STensor K)) :=
  match cls with
  | .eulerMaruyama => do
    checkTypes sde "ito" allNoiseTypes
    pure ⟨false, eulerMaruyamaShaped sde bm⟩
  | .eulerHeun => do
    checkTypes sde "stratonovich" allNoiseTypes
    pure ⟨false, eulerHeunShaped sde bm⟩
  | .midpoint => throw PyErr.typeError
  | .milsteinIto => pure ⟨false, milsteinShaped sqrt (fun b dt => b ^ 2 - dt) sde bm⟩
  | .milsteinStratonovich => pure ⟨false, milsteinShaped sqrt (fun b _ => b ^ 2) sde bm⟩

/-- sde.py:126-129 `sde_str_to_solver`. -/
def sdeStrToSolverShaped (sqrt : K → K) (name : String) (sde : SdeFunc (Except PyErr) K (STensor K))
    (bm : K → K → Except PyErr (STensor K)) : Except PyErr (SdeSolver (Except PyErr) K (STensor K)) :=
  match sdeSolverDict.find? (fun p => p.1 == name) with
  | some p => mkSdeSolverShaped sqrt p.2 sde bm
  | none => throw PyErr.keyError

/-- sdeint.py:33-84 `sdeint` by solver name on tensors with shapes, with the stacking of the states at sdeint.py:107-114 (the
list stands for the stacked tensor). -/
def sdeintShaped [LinearOrder K] (sqrt : K → K) (sde : SdeArg (Except PyErr) K (STensor K)) (x : STensor K) (tSpan : List K)
    (name : String) (bm : K → K → Except PyErr (STensor K)) (saveAt : List K) :
    Except PyErr (List K × List (STensor K)) := do
  let sde ← checkSde sde
  let solver ← sdeStrToSolverShaped sqrt name sde bm
  let saveAt := if saveAt.length = 0 then tSpan else saveAt
  let (ts, sol) ← fixedSdeint torchIsclose solver.step x tSpan saveAt
  let sol ← stackTensors sol
  pure (ts, sol)

end

end Torchdyn
