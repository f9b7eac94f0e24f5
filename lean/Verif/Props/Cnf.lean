import Verif.Props.Energy
import Mathlib.MeasureTheory.Integral.Bochner.Basic

/-!
Continuous normalizing flows: C61 (the first column is minus the divergence), C62 (the Hutchinson estimator is unbiased).
-/

set_option linter.unusedSimpArgs false
set_option linter.unusedSectionVars false

namespace Torchdyn

open Spec

variable {B : Type} [Fintype B] [DecidableEq B] {d : Nat}

/-- The divergence of a field on `ℝ^d`: the trace of its derivative. -/
noncomputable def divergence (g : (Fin d → ℝ) → (Fin d → ℝ)) (y : Fin d → ℝ) : ℝ :=
  LinearMap.trace ℝ (Fin d → ℝ) (fderiv ℝ g y).toLinearMap

theorem divergence_eq_sum (g : (Fin d → ℝ) → (Fin d → ℝ)) (y : Fin d → ℝ) :
    divergence g y = ∑ i, fderiv ℝ g y (Pi.single i 1) i := by
  unfold divergence
  rw [LinearMap.trace_eq_matrix_trace ℝ (Pi.basisFun ℝ (Fin d)), Matrix.trace]
  refine Finset.sum_congr rfl (fun i _ => ?_)
  simp [Matrix.diag, LinearMap.toMatrix_apply]

theorem fderiv_comp_apply (g : (Fin d → ℝ) → (Fin d → ℝ)) (y : Fin d → ℝ) (hg : DifferentiableAt ℝ g y) (j : Fin d)
    (v : Fin d → ℝ) : fderiv ℝ (fun z => g z j) y v = fderiv ℝ g y v j := by
  have h : HasFDerivAt (fun z => g z j) ((ContinuousLinearMap.proj (R := ℝ) (φ := fun _ : Fin d => ℝ) j).comp
      (fderiv ℝ g y)) y :=
    (ContinuousLinearMap.proj (R := ℝ) (φ := fun _ : Fin d => ℝ) j).hasFDerivAt.comp y hg.hasFDerivAt
  rw [h.fderiv]
  rfl

/-- The brute-force trace of a network that acts sample by sample is the divergence at each sample. -/
theorem C61_autograd_trace (g : (Fin d → ℝ) → (Fin d → ℝ)) (hg : Differentiable ℝ g) (x : RowBatch B d) (b : B) :
    autogradTrace (fun y k => g (y k)) x b = divergence g (x b) := by
  rw [divergence_eq_sum]
  unfold autogradTrace
  refine Finset.sum_congr rfl (fun i _ => ?_)
  have hgi : Differentiable ℝ (fun z => g z i) := (differentiable_pi.1 hg) i
  rw [autogradGrad_perSample (fun z => g z i) hgi, fderiv_comp_apply g _ (hg _)]

/-- **C61.** For every differentiable network acting sample by sample, at least one data column and order one, the CNF
field returns minus the exact divergence of the network in column `0` and the network's output in the others; nothing
depends on column `0` of the input. -/
theorem C61_forward (g : (Fin d → ℝ) → (Fin d → ℝ)) (hg : Differentiable ℝ g) (hd : 0 < d) (order : Nat) (ho : order ≤ 1)
    (noise : Option (RowBatch B d)) (x : RowBatch B (d + 1)) :
    ∃ out, (Cnf.mk (fun y k => g (y k)) .autograd order noise).forward x = .ok out ∧
      ∀ b, out b 0 = -divergence g (fun i => x b i.succ) ∧ ∀ i : Fin d, out b i.succ = g (fun i => x b i.succ) i := by
  refine ⟨fun b => Fin.cons (-autogradTrace (fun y k => g (y k)) (dataCols x) b) (g (dataCols x b)), ?_, ?_⟩
  · simp only [Cnf.forward]
    rw [if_neg (by omega), if_neg (by omega)]
    rfl
  · intro b
    refine ⟨?_, fun i => ?_⟩
    · simp only [Fin.cons_zero]
      rw [C61_autograd_trace g hg]
      rfl
    · simp only [Fin.cons_succ]
      rfl

/-- **C61**, the default constructor: without estimator it is the exact trace. -/
theorem C61_default (net : RowBatch B d → RowBatch B d) (noiseDist : Bool) (order : Nat) :
    Cnf.make net none noiseDist order = .ok ⟨net, .autograd, order, none⟩ := by
  cases noiseDist <;> rfl

/-- **C61**, independence of column `0`, for every network, estimator and error. -/
theorem C61_ignores_first_column (c : Cnf B d) (x x' : RowBatch B (d + 1)) (h : ∀ b (i : Fin d), x b i.succ = x' b i.succ) :
    c.forward x = c.forward x' := by
  have : dataCols x = dataCols x' := by
    funext b i
    exact h b i
  unfold Cnf.forward
  rw [this]

/-- Beyond C61: orders above one, which the constructor accepts, always raise. -/
theorem C61_order_refuted (c : Cnf B d) (ho : 1 < c.order) (x : RowBatch B (d + 1)) :
    c.forward x = .error .attributeError := by
  simp only [Cnf.forward]
  rw [if_pos ho]
  rfl

theorem autogradGrad_weighted (g : (Fin d → ℝ) → (Fin d → ℝ)) (hg : Differentiable ℝ g) (noise x : RowBatch B d) (b : B)
    (i : Fin d) :
    autogradGrad (fun y => ∑ k, ∑ j, noise k j * g (y k) j) x b i =
      ∑ j, noise b j * fderiv ℝ g (x b) (Pi.single i 1) j := by
  unfold autogradGrad
  have h : HasFDerivAt (fun y : RowBatch B d => ∑ k, ∑ j, noise k j * g (y k) j)
      (∑ k, ∑ j, noise k j • ((ContinuousLinearMap.proj (R := ℝ) (φ := fun _ : Fin d => ℝ) j).comp
        ((fderiv ℝ g (x k)).comp (ContinuousLinearMap.proj k)))) x := by
    refine HasFDerivAt.fun_sum (fun k _ => HasFDerivAt.fun_sum (fun j _ => ?_))
    refine HasFDerivAt.const_mul ?_ _
    exact (ContinuousLinearMap.proj (R := ℝ) (φ := fun _ : Fin d => ℝ) j).hasFDerivAt.comp x
      ((hg (x k)).hasFDerivAt.comp x (ContinuousLinearMap.proj (R := ℝ) (φ := fun _ : B => Fin d → ℝ) k).hasFDerivAt)
  rw [h.fderiv]
  simp only [sum_apply, smul_apply, ContinuousLinearMap.comp_apply,
    ContinuousLinearMap.proj_apply, smul_eq_mul]
  rw [Finset.sum_eq_single b]
  · refine Finset.sum_congr rfl (fun j _ => ?_)
    have : unitBatch b i b = (Pi.single i 1 : Fin d → ℝ) := by
      funext j
      simp [unitBatch, Pi.single_apply]
    rw [this]
  · intro k _ hk
    have : unitBatch b i k = (0 : Fin d → ℝ) := by
      funext j
      simp [unitBatch, hk]
    simp [this]
  · simp

/-- The estimator is the quadratic form of the Jacobian in the noise of the sample. -/
theorem C62_quadratic_form (g : (Fin d → ℝ) → (Fin d → ℝ)) (hg : Differentiable ℝ g) (noise x : RowBatch B d) (b : B) :
    hutchTrace (fun y k => g (y k)) noise x b =
      ∑ i, ∑ j, (noise b j * noise b i) * fderiv ℝ g (x b) (Pi.single i 1) j := by
  unfold hutchTrace
  refine Finset.sum_congr rfl (fun i _ => ?_)
  rw [autogradGrad_weighted g hg, Finset.sum_mul]
  refine Finset.sum_congr rfl (fun j _ => ?_)
  ring

open MeasureTheory in
/-- **C62.** For noise drawn from any distribution whose second moments exist and form the identity, the mean of the
Hutchinson estimate is the exact divergence, at every sample, for every differentiable network acting sample by sample. -/
theorem C62_unbiased {Ω : Type} [MeasurableSpace Ω] (μ : Measure Ω) (noise : Ω → RowBatch B d)
    (hint : ∀ b i j, Integrable (fun ω => noise ω b i * noise ω b j) μ)
    (hcov : ∀ b i j, ∫ ω, noise ω b i * noise ω b j ∂μ = if i = j then 1 else 0)
    (g : (Fin d → ℝ) → (Fin d → ℝ)) (hg : Differentiable ℝ g) (x : RowBatch B d) (b : B) :
    ∫ ω, hutchTrace (fun y k => g (y k)) (noise ω) x b ∂μ = divergence g (x b) := by
  rw [divergence_eq_sum]
  simp only [C62_quadratic_form g hg]
  rw [integral_finsetSum _ (fun i _ => integrable_finsetSum _ (fun j _ => (hint b j i).mul_const _))]
  refine Finset.sum_congr rfl (fun i _ => ?_)
  rw [integral_finsetSum _ (fun j _ => (hint b j i).mul_const _)]
  rw [Finset.sum_eq_single i]
  · rw [integral_mul_const, hcov, if_pos rfl, one_mul]
  · intro j _ hj
    rw [integral_mul_const, hcov, if_neg hj, zero_mul]
  · simp

/-- **C62** for finitely supported noise: weights `w` and noise values `noise`. -/
theorem C62_unbiased_finite {Ω : Type} [Fintype Ω] (w : Ω → ℝ) (noise : Ω → RowBatch B d)
    (hcov : ∀ b i j, ∑ ω, w ω * (noise ω b i * noise ω b j) = if i = j then 1 else 0)
    (g : (Fin d → ℝ) → (Fin d → ℝ)) (hg : Differentiable ℝ g) (x : RowBatch B d) (b : B) :
    ∑ ω, w ω * hutchTrace (fun y k => g (y k)) (noise ω) x b = divergence g (x b) := by
  rw [divergence_eq_sum]
  simp only [C62_quadratic_form g hg, Finset.mul_sum]
  rw [Finset.sum_comm]
  refine Finset.sum_congr rfl (fun i _ => ?_)
  rw [Finset.sum_comm]
  have : ∀ j, ∑ ω, w ω * (noise ω b j * noise ω b i * fderiv ℝ g (x b) (Pi.single i 1) j) =
      (if j = i then 1 else 0) * fderiv ℝ g (x b) (Pi.single i 1) j := by
    intro j
    rw [← hcov b j i, Finset.sum_mul]
    refine Finset.sum_congr rfl (fun ω _ => ?_)
    ring
  simp only [this]
  simp

/-- **C62**, error branches: the estimator is refused without a noise distribution, and fails when no noise was set. -/
theorem C62_needs_noise (net : RowBatch B d → RowBatch B d) (order : Nat) :
    Cnf.make net (some .hutch) false order = .error .assertionError := rfl

/-- The moments of the theorem are met by independent signs: four equally likely sign pairs in dimension two. -/
example : ∀ (b : Unit) (i j : Fin 2), ∑ ω : Bool × Bool, (1 / 4 : ℝ) *
    ((fun (_ : Unit) (i : Fin 2) => if (if i = 0 then ω.1 else ω.2) then (1 : ℝ) else -1) b i *
      (fun (_ : Unit) (i : Fin 2) => if (if i = 0 then ω.1 else ω.2) then (1 : ℝ) else -1) b j) =
    if i = j then 1 else 0 := by
  intro b i j
  fin_cases i <;> fin_cases j <;> norm_num [Fintype.sum_prod_type]

/-- The divergence in the statements is the usual one: for `g(y) = (3 y₀ + y₁, y₀ - 5 y₁)` it is `-2`. -/
example (y : Fin 2 → ℝ) : divergence (fun z : Fin 2 → ℝ => ![3 * z 0 + z 1, z 0 - 5 * z 1]) y = -2 := by
  have hd : Differentiable ℝ (fun z : Fin 2 → ℝ => ![3 * z 0 + z 1, z 0 - 5 * z 1]) := by
    refine differentiable_pi.2 (fun i => ?_)
    fin_cases i <;> simp <;> fun_prop
  have h0 : HasFDerivAt (fun z : Fin 2 → ℝ => z 0) (ContinuousLinearMap.proj (R := ℝ) (φ := fun _ : Fin 2 => ℝ) 0) y :=
    (ContinuousLinearMap.proj (R := ℝ) (φ := fun _ : Fin 2 => ℝ) 0).hasFDerivAt
  have h1 : HasFDerivAt (fun z : Fin 2 → ℝ => z 1) (ContinuousLinearMap.proj (R := ℝ) (φ := fun _ : Fin 2 => ℝ) 1) y :=
    (ContinuousLinearMap.proj (R := ℝ) (φ := fun _ : Fin 2 => ℝ) 1).hasFDerivAt
  rw [divergence_eq_sum, Fin.sum_univ_two, ← fderiv_comp_apply _ y (hd y), ← fderiv_comp_apply _ y (hd y)]
  have e0 : HasFDerivAt (fun z : Fin 2 → ℝ => 3 * z 0 + z 1) _ y := (h0.const_mul 3).add h1
  have e1 : HasFDerivAt (fun z : Fin 2 → ℝ => z 0 - 5 * z 1) _ y := h0.sub (h1.const_mul 5)
  have f0 : (fun z : Fin 2 → ℝ => (![3 * z 0 + z 1, z 0 - 5 * z 1] : Fin 2 → ℝ) 0) = fun z => 3 * z 0 + z 1 := rfl
  have f1 : (fun z : Fin 2 → ℝ => (![3 * z 0 + z 1, z 0 - 5 * z 1] : Fin 2 → ℝ) 1) = fun z => z 0 - 5 * z 1 := rfl
  rw [f0, f1, e0.fderiv, e1.fderiv]
  simp
  norm_num

end Torchdyn
