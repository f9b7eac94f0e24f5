import Verif.Model.Root

/-!
The logger of `root_find`: /repo/torchdyn/numerics/utils.py:112-118 and the lines of
/repo/torchdyn/numerics/solvers/root.py:259-300 that write to it. `RootLogger.permanent_log` (utils.py:119-123), which nothing calls,
is left out.
-/

namespace Torchdyn

variable {β ι ο : Type} [Fintype β] [Fintype ι] [Fintype ο]

/-- The values stored in `RootLogger.data`. -/
inductive LogValue (β ι ο : Type)
  /-- the empty list of utils.py:114 -/
  | emptyList
  | residual (v : Batch β ο)
  | point (v : Batch β ι)
  | int (n : Nat)
  | text (s : String)

/-- `RootLogger.data`, a dictionary in insertion order. -/
abbrev RootLog (β ι ο : Type) := List (String × LogValue β ι ο)

/-- utils.py:113-114 `RootLogger.__init__`. -/
def rootLogInit : RootLog β ι ο :=
  [("geval", .emptyList), ("z", .emptyList), ("dz", .emptyList), ("iteration", .emptyList), ("alpha", .emptyList),
   ("phi", .emptyList)]

/-- `dict[key] = value`: an existing key keeps its place. -/
def logSet {α : Type} (key : String) (value : α) : List (String × α) → List (String × α)
  | [] => [(key, value)]
  | p :: d => if p.1 = key then (key, value) :: d else p :: logSet key value d

/-- `dict.get(key)`. -/
def logGet {α : Type} (key : String) : List (String × α) → Option α
  | [] => none
  | p :: d => if p.1 = key then some p.2 else logGet key d

/-- utils.py:116-117 `RootLogger.log`: `self.data.update(**logged_data)`. -/
def rootLogLog (log : RootLog β ι ο) (logged : List (String × LogValue β ι ο)) : RootLog β ι ο :=
  logged.foldl (fun d p => logSet p.1 p.2 d) log

/-- root.py:252-253 `RETURN_CODES[code]` for the only positive code that `TerminationCondition.check` returns (root.py:241),
`2`. -/
def returnCode2 : String := "total condition"

/-- root.py:275-300: the loop of `rootLoop` together with the logger; returns `(z, logger.data)`. `if verbose and logger` is
`verbose`: a `RootLogger` is truthy. -/
noncomputable def rootLoopLog (cfg : RootCfg) (method : RootMethod) (search : SearchMethod) (verbose : Bool)
    (g : Batch β ι → Batch β ο) (fuel : Nat) :
    (left : Nat) → RootState β ι ο → RootLog β ι ο → Except PyErr (Option (Batch β ι × RootLog β ι ο))
  | 0, s, log => .ok (some (s.z, log))
  | left + 1, s, log => do
    let (z, dz, geval, J) ← rootStep method g s.z s.Jinv s.geval s.alpha
    match searchAlpha search g geval dz z s.alpha fuel with
    | Option.none => pure Option.none
    | some alpha =>
      let iteration := s.iteration + 1
      let log := if verbose then
          rootLogLog log [("geval", .residual geval), ("z", .point z), ("dz", .point dz), ("iteration", .int iteration)]
        else log
      let (f0, stop) := termCheck cfg.fTol cfg.fRtol cfg.xTol cfg.xRtol s.f0Norm geval z dz
      if stop then
        let log := if verbose then rootLogLog log [("termination_condition", .text returnCode2)] else log
        pure (some (z, log))
      else rootLoopLog cfg method search verbose g fuel left ⟨iteration, z, dz, geval, J, alpha, some f0, stop⟩ log

/-- root.py:259-300 `root_find(…, verbose=verbose)`: the returned pair. The initial inverse Jacobian `J0` is a parameter as in
`rootFind`. -/
noncomputable def rootFindLog (cfg : RootCfg) (method search : String) (verbose : Bool) (g : Batch β ι → Batch β ο)
    (J0 : BatchMat β ι ο) (z : Batch β ι) (alpha : ℝ) (fuel : Nat) :
    Except PyErr (Option (Batch β ι × RootLog β ι ο)) :=
  match rootSolverDict.find? (fun p => p.1 == method) with
  | Option.none => .error .assertionError
  | some p =>
    match searchMethods.find? (fun p => p.1 == search) with
    | Option.none => .error .assertionError
    | some q =>
      rootLoopLog cfg p.2 q.2 verbose g fuel (cfg.maxiters + 1)
        ⟨0, z, fun _ _ => 0, g z, J0, alpha, Option.none, false⟩ rootLogInit

end Torchdyn
