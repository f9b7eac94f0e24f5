import Verif.Model.Py
import Verif.Model.MultipleShooting
import Mathlib.Analysis.SpecialFunctions.Trigonometric.Basic
import Mathlib.Analysis.Real.Sqrt

/-!
Toy datasets, /repo/torchdyn/datasets/static_datasets.py. Random draws are arguments; arithmetic is over the reals. A
dataset is the list of its rows, each a list of coordinates, and the list of its labels.
-/

namespace Torchdyn

/-- A dataset: rows and labels. -/
abbrev Dataset := List (List ℝ) × List Nat

/-- static_datasets.py:28-38 `randnsphere`, with the normal draw `v`. For `v = 0` torch gives NaN; here `0`. -/
noncomputable def randnsphere (v : List ℝ) (radius : ℝ) : List ℝ :=
  let invLen := radius / Real.sqrt ((v.map (fun a => a ^ 2)).sum)
  v.map (fun a => a * invLen)

/-- Elementwise sum of two rows of the same length. -/
noncomputable def addRow (a b : List ℝ) : List ℝ := List.zipWith (· + ·) a b

/-- `torch.cat(samples)` of rows: an empty list is a `RuntimeError`. -/
def catRows (rows : List (List ℝ)) : Except PyErr (List (List ℝ)) :=
  if rows = [] then throw .runtimeError else pure rows

/-- Rows broadcast to a slice of `k` rows: as many rows, or a single one. -/
def broadcastRows (k : Nat) (rows : List (List ℝ)) : Except PyErr (List (List ℝ)) :=
  if rows.length = k then pure rows
  else match rows with
    | [r] => pure (List.replicate k r)
    | _ => throw .runtimeError

/-- static_datasets.py:41-68 `generate_concentric_spheres`; `inner i` and `outer i` are the normal draws of `randnsphere`,
`noiseIn i` and `noiseOut i` the rows of the additive noise. The first `n_samples // 2` labels are `1`. -/
noncomputable def generateConcentricSpheres (nSamples : Nat) (innerRadius outerRadius : ℝ)
    (inner outer noiseIn noiseOut : Nat → List ℝ) : Except PyErr Dataset := do
  let h := nSamples / 2
  let y := List.replicate h 1 ++ List.replicate (nSamples - h) 0
  let s1 ← catRows ((List.range h).map (fun i => randnsphere (inner i) innerRadius))
  let x1 ← broadcastRows h s1
  let e1 ← broadcastRows h ((List.range h).map noiseIn)
  let x1 := List.zipWith addRow x1 e1
  let s2 ← catRows ((List.range h).map (fun i => randnsphere (outer i) outerRadius))
  let x2 ← broadcastRows (nSamples - h) s2
  let e2 ← broadcastRows (nSamples - h) ((List.range h).map noiseOut)
  let x2 := List.zipWith addRow x2 e2
  pure (x1 ++ x2, y)

/-- static_datasets.py:71-95 `generate_moons`; `u i` is the uniform draw of row `i`, added to both coordinates. -/
noncomputable def generateMoons (nSamples : Nat) (noise : Option ℝ) (u : Nat → ℝ) : Dataset :=
  let nOut := nSamples / 2
  let nIn := nSamples - nOut
  let outerX := (linspace0 Real.pi nOut).map Real.cos
  let outerY := (linspace0 Real.pi nOut).map Real.sin
  let innerX := (linspace0 Real.pi nIn).map (fun a => 1 - Real.cos a)
  let innerY := (linspace0 Real.pi nIn).map (fun a => 1 - Real.sin a - 1 / 2)
  let X := List.zipWith (fun a b => [a, b]) (outerX ++ innerX) (outerY ++ innerY)
  let y := List.replicate nOut 0 ++ List.replicate nIn 1
  let X := match noise with
    | none => X
    | some s => X.mapIdx (fun i row => row.map (fun a => a + u i * s))
  (X, y)

/-- static_datasets.py:98-112 `generate_spirals`; `r i`, `u i`, `v i` are the uniform draws of sample `i`. -/
noncomputable def generateSpirals (nSamples : Nat) (noise : ℝ) (r u v : Nat → ℝ) : Dataset :=
  let n := fun i : Nat => Real.sqrt (r i) * 780 * (2 * Real.pi) / 360
  let d1x := fun i : Nat => -Real.cos (n i) * n i + u i * noise
  let d1y := fun i : Nat => Real.sin (n i) * n i + v i * noise
  ((List.range nSamples).map (fun i => [d1x i, d1y i]) ++ (List.range nSamples).map (fun i => [-d1x i, -d1y i]),
    List.replicate nSamples 0 ++ List.replicate nSamples 1)

/-- `l[a:b] = rows` on a list of rows of the right number. -/
def spliceRows {α : Type} (l : List α) (a : Nat) (rows : List α) : List α :=
  l.take a ++ rows ++ l.drop (a + rows.length)

/-- The mean of a class, static_datasets.py:140-141 and 182-183. In two dimensions the point at the angle; in three
dimensions the list has three one-element entries and the second is not multiplied by the radius; above, the third entry
has several elements, which `torch.Tensor` rejects (`ValueError`). -/
noncomputable def gaussianLoc (dim : Nat) (radius angle : ℝ) : Except PyErr (List ℝ) :=
  if 2 < dim then
    if dim = 3 then pure [radius * Real.cos angle, Real.sin angle, radius * 0] else throw .valueError
  else pure [radius * Real.cos angle, radius * Real.sin angle]

/-- The loop of `generate_gaussians` (static_datasets.py:138-143) and `generate_gaussians_spiral` (180-187) over classes
`i, …, i + k - 1`: the angle is increased before use; `z i j` is the normal draw of row `j` of class `i` and `w i` the noise
vector of the class. Rows have as many entries as the mean; assigning them to columns of another number is a
`RuntimeError`. -/
noncomputable def gaussianLoop (nSamples dim : Nat) (radius std : Nat → ℝ) (noise dAngle : ℝ) (z : Nat → Nat → List ℝ)
    (w : Nat → List ℝ) : (k i : Nat) → (angle : ℝ) → Dataset → Except PyErr Dataset
  | 0, _, _, d => pure d
  | k + 1, i, angle, (X, y) => do
    let angle := angle + dAngle
    let loc ← gaussianLoc dim (radius i) angle
    if loc.length ≠ dim then throw .runtimeError
    let rows := (List.range nSamples).map (fun j =>
      addRow (addRow loc ((z i j).map (fun a => std i * a))) ((w i).map (fun a => a * noise)))
    gaussianLoop nSamples dim radius std noise dAngle z w k (i + 1) angle
      (spliceRows X (i * nSamples) rows, spliceRows y (i * nSamples) (List.replicate nSamples i))

/-- static_datasets.py:115-144 `generate_gaussians`. -/
noncomputable def generateGaussians (nSamples nGaussians dim : Nat) (radius std noise : ℝ) (z : Nat → Nat → List ℝ)
    (w : Nat → List ℝ) : Except PyErr Dataset :=
  gaussianLoop nSamples dim (fun _ => radius) (fun _ => std) noise (2 * Real.pi / nGaussians) z w nGaussians 0 0
    (List.replicate (nSamples * nGaussians) (List.replicate dim 0), List.replicate (nSamples * nGaussians) 0)

/-- `torch.linspace(a, b, n)[i]`. -/
noncomputable def linspaceAt (a b : ℝ) (n i : Nat) : ℝ := a + i * ((b - a) / ((n : ℝ) - 1))

/-- static_datasets.py:147-188 `generate_gaussians_spiral`; `radiuses[0]` is an `IndexError` without classes.
`n_gaussians_per_loop = 0` (a `ZeroDivisionError`) is not modelled. -/
noncomputable def generateGaussiansSpiral (nSamples nGaussians perLoop dim : Nat)
    (radiusStart radiusEnd stdStart stdEnd noise : ℝ) (z : Nat → Nat → List ℝ) (w : Nat → List ℝ) :
    Except PyErr Dataset := do
  if nGaussians = 0 then throw .indexError
  gaussianLoop nSamples dim (linspaceAt radiusStart radiusEnd nGaussians) (linspaceAt stdStart stdEnd nGaussians) noise
    (2 * Real.pi / perLoop) z w nGaussians 0 0
    (List.replicate (nSamples * nGaussians) (List.replicate dim 0), List.replicate (nSamples * nGaussians) 0)

end Torchdyn
