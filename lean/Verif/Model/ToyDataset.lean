import Verif.Model.Datasets

/-!
`ToyDataset.generate` and `generate_diffeqml`, /repo/torchdyn/datasets/static_datasets.py:191-250.
-/

namespace Torchdyn

/-- The keyword arguments of `ToyDataset.generate`: `none` is an argument that is not given, `unknown` lists the given
names that no generator declares. Values have the declared types (`noise=None` of `generate_moons` is left out). -/
structure ToyKwargs where
  noise : Option ℝ := none
  dim : Option Nat := none
  innerRadius : Option ℝ := none
  outerRadius : Option ℝ := none
  nGaussians : Option Nat := none
  nGaussiansPerLoop : Option Nat := none
  radius : Option ℝ := none
  stdGaussians : Option ℝ := none
  radiusStart : Option ℝ := none
  radiusEnd : Option ℝ := none
  stdGaussiansStart : Option ℝ := none
  stdGaussiansEnd : Option ℝ := none
  unknown : List String := []

/-- The names of the given keyword arguments. -/
def ToyKwargs.names (k : ToyKwargs) : List String :=
  (if k.noise.isSome then ["noise"] else []) ++ (if k.dim.isSome then ["dim"] else []) ++
  (if k.innerRadius.isSome then ["inner_radius"] else []) ++ (if k.outerRadius.isSome then ["outer_radius"] else []) ++
  (if k.nGaussians.isSome then ["n_gaussians"] else []) ++
  (if k.nGaussiansPerLoop.isSome then ["n_gaussians_per_loop"] else []) ++
  (if k.radius.isSome then ["radius"] else []) ++ (if k.stdGaussians.isSome then ["std_gaussians"] else []) ++
  (if k.radiusStart.isSome then ["radius_start"] else []) ++ (if k.radiusEnd.isSome then ["radius_end"] else []) ++
  (if k.stdGaussiansStart.isSome then ["std_gaussians_start"] else []) ++
  (if k.stdGaussiansEnd.isSome then ["std_gaussians_end"] else []) ++ k.unknown

/-- Calling a function without `**kwargs` with a keyword argument it does not declare is a `TypeError`. -/
def ToyKwargs.check (k : ToyKwargs) (declared : List String) : Except PyErr Unit :=
  if k.names.all (declared.contains ·) then pure () else throw .typeError

/-- The random draws of all generators; the normal rows have the number of entries asked for, and `spherenoise` is the
standard normal row that is scaled by `noise`. -/
structure ToyDraws where
  uniform : Nat → ℝ
  uniform' : Nat → ℝ
  uniform'' : Nat → ℝ
  inner : Nat → Nat → List ℝ
  outer : Nat → Nat → List ℝ
  innerNoise : Nat → Nat → List ℝ
  outerNoise : Nat → Nat → List ℝ
  normal : Nat → Nat → Nat → List ℝ
  classNoise : Nat → Nat → List ℝ
  kde : List (List ℝ) → Nat → List (List ℝ)
  kdeNoise : Nat → List ℝ
  lsoda : ((ℝ × ℝ) → (ℝ × ℝ)) → (ℝ × ℝ) → List ℝ → List (List ℝ)

/-- static_datasets.py:204-207: the field of the logo, with `mu = 1`. -/
def logoField (p : ℝ × ℝ) : ℝ × ℝ :=
  (-p.2 + 1 * p.1 * (1 - p.1 ^ 2 - p.2 ^ 2), p.1 + 1 * p.2 * (1 - p.1 ^ 2 - p.2 ^ 2))

/-- static_datasets.py:191-221 `generate_diffeqml`: three trajectories computed by LSODA (a parameter) and a circle are
handed to a kernel density estimate (a parameter), which is sampled. There are no labels. -/
noncomputable def generateDiffeqml (nSamples : Nat) (noise : ℝ) (r : ToyDraws) : List (List ℝ) :=
  let x0s : List (ℝ × ℝ) := [(0, 2), (-1.6, -1.2), (1.6, -1.2)]
  let t := (List.range 500).map (linspaceAt 0 3.2 500)
  let X := x0s.flatMap (fun x0 => r.lsoda logoField x0 t)
  let theta := (List.range 1000).map (linspaceAt 0 (2 * Real.pi) 1000)
  let X := X ++ theta.map (fun a => [2 * Real.cos a, 2 * Real.sin a])
  List.zipWith addRow (r.kde X nSamples) ((List.range nSamples).map (fun i => (r.kdeNoise i).map (fun a => noise * a)))

/-- static_datasets.py:224-250 `ToyDataset.generate`, with the default values of the signatures of the generators. Without
a matching branch the method returns `None`. -/
noncomputable def toyGenerate (r : ToyDraws) (nSamples : Nat) (datasetType : String) (k : ToyKwargs) :
    Except PyErr (Option (List (List ℝ) × Option (List Nat))) := do
  if datasetType = "moons" then
    let d := generateMoons nSamples (some (k.noise.getD (1 / 10000))) r.uniform
    pure (some (d.1, some d.2))
  else if datasetType = "spirals" then
    let d := generateSpirals nSamples (k.noise.getD (1 / 10000)) r.uniform r.uniform' r.uniform''
    pure (some (d.1, some d.2))
  else if datasetType = "spheres" then
    k.check ["noise", "dim", "inner_radius", "outer_radius"]
    let dim := k.dim.getD 3
    let noise := k.noise.getD (1 / 10000)
    let d ← generateConcentricSpheres nSamples (k.innerRadius.getD (1 / 2)) (k.outerRadius.getD 1) (r.inner dim)
      (r.outer dim) (fun i => (r.innerNoise dim i).map (fun a => noise * a))
      (fun i => (r.outerNoise dim i).map (fun a => noise * a))
    pure (some (d.1, some d.2))
  else if datasetType = "gaussians" then
    k.check ["n_gaussians", "dim", "radius", "std_gaussians", "noise"]
    let dim := k.dim.getD 2
    let d ← generateGaussians nSamples (k.nGaussians.getD 7) dim (k.radius.getD (1 / 2)) (k.stdGaussians.getD (1 / 10))
      (k.noise.getD (1 / 1000)) (r.normal dim) (r.classNoise dim)
    pure (some (d.1, some d.2))
  else if datasetType = "gaussians_spiral" then
    k.check ["n_gaussians", "n_gaussians_per_loop", "dim", "radius_start", "radius_end", "std_gaussians_start",
      "std_gaussians_end", "noise"]
    let dim := k.dim.getD 2
    let d ← generateGaussiansSpiral nSamples (k.nGaussians.getD 7) (k.nGaussiansPerLoop.getD 4) dim
      (k.radiusStart.getD 1) (k.radiusEnd.getD (1 / 5)) (k.stdGaussiansStart.getD (3 / 10))
      (k.stdGaussiansEnd.getD (1 / 10)) (k.noise.getD (1 / 1000)) (r.normal dim) (r.classNoise dim)
    pure (some (d.1, some d.2))
  else if datasetType = "diffeqml" then
    k.check ["noise"]
    pure (some (generateDiffeqml nSamples (k.noise.getD (1 / 1000)) r, none))
  else pure none

end Torchdyn
