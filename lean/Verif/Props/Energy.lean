import Verif.Model.Energy
import Verif.Spec.Flow
import Mathlib.Analysis.Calculus.MeanValue
import Mathlib.Analysis.Calculus.Deriv.MeanValue
import Mathlib.Analysis.Calculus.ContDiff.Basic
import Mathlib.Analysis.Calculus.FDeriv.Pi
import Mathlib.Analysis.Calculus.Deriv.Pi
import Mathlib.Analysis.Calculus.FDeriv.Mul
import Mathlib.Analysis.Calculus.FDeriv.Add
import Mathlib.Analysis.Calculus.Deriv.Mul
import Mathlib.Analysis.Calculus.Deriv.Comp
import Mathlib.LinearAlgebra.Matrix.Trace
import Mathlib.LinearAlgebra.Matrix.ToLin
import Mathlib.LinearAlgebra.Trace
import Mathlib.Analysis.Calculus.Deriv.Prod
import Mathlib.Analysis.SpecialFunctions.ExpDeriv
import Mathlib.Analysis.SpecialFunctions.Trigonometric.Deriv

/-!
Energy models: C59 (HNN conserves its energy), C60 (GNF dissipates its energy), C76 (LNN satisfies the Euler–Lagrange
equations), C77 (ConservativeLinearSNF).
-/

set_option linter.unusedSimpArgs false
set_option linter.unusedSectionVars false

namespace Torchdyn

open Spec

section energy

variable {B O : Type} [Fintype B] [DecidableEq B] [Fintype O] {d : Nat}

theorem batch_eq_sum (v : RowBatch B d) : v = ∑ b, ∑ i, v b i • unitBatch b i := by
  funext b i
  simp only [Finset.sum_apply, Pi.smul_apply, unitBatch, smul_eq_mul, mul_ite, mul_one, mul_zero]
  rw [Finset.sum_eq_single b]
  · rw [Finset.sum_eq_single i]
    · simp
    · intro j _ hj
      simp [hj.symm]
    · simp
  · intro b' _ hb'
    simp [hb'.symm]
  · simp

/-- Every linear functional is the pairing with its values on unit tensors. -/
theorem clm_batch_apply (L : RowBatch B d →L[ℝ] ℝ) (v : RowBatch B d) : L v = ∑ b, ∑ i, L (unitBatch b i) * v b i := by
  conv_lhs => rw [batch_eq_sum v]
  simp only [map_sum, map_smul, smul_eq_mul]
  exact Finset.sum_congr rfl (fun b _ => Finset.sum_congr rfl (fun i _ => mul_comm _ _))

theorem energy_deriv {F : RowBatch B d → RowBatch B d} {a b : ℝ} {x : ℝ → RowBatch B d} (hx : SolvesOn F a b x)
    {φ : RowBatch B d → ℝ} (hφ : Differentiable ℝ φ) {t : ℝ} (ht : t ∈ Set.Icc a b) :
    HasDerivWithinAt (fun s => φ (x s)) (∑ k, ∑ i, autogradGrad φ (x t) k i * F (x t) k i) (Set.Icc a b) t := by
  have := (hφ (x t)).hasFDerivAt.comp_hasDerivWithinAt t (hx t ht)
  rw [clm_batch_apply] at this
  exact this

/-- The sum over all columns, split at `n` and `d - n` columns from the left, for even `d`. -/
theorem hnn_orthogonal (net : RowBatch B d → O → ℝ) (hd : Even d) (x : RowBatch B d) (b : B) :
    ∑ i, autogradGrad (outputSum net) x b i * hnnForward net x b i = 0 := by
  obtain ⟨n, rfl⟩ := hd
  have hn : (n + n) / 2 = n := by omega
  set g := autogradGrad (outputSum net) x b with hg
  rw [Fin.sum_univ_add]
  have h1 : ∀ i : Fin n, hnnForward net x b (Fin.castAdd n i) = g (Fin.natAdd n i) := by
    intro i
    simp only [hnnForward, hn]
    rw [dif_pos (by simp)]
    rw [hg]
    congr 1
    ext
    simp [add_comm]
  have h2 : ∀ i : Fin n, hnnForward net x b (Fin.natAdd n i) = -g (Fin.castAdd n i) := by
    intro i
    simp only [hnnForward, hn]
    rw [dif_neg (by simp)]
    rw [hg]
    congr 2
    ext
    simp
  simp only [h1, h2]
  rw [← Finset.sum_add_distrib]
  refine Finset.sum_eq_zero (fun i _ => ?_)
  ring

/-- **C59.** For every differentiable energy network and every even width, the total energy is constant along every exact
solution of the HNN field, on every interval on which the solution exists. -/
theorem C59_energy_conserved (net : RowBatch B d → O → ℝ) (hd : Even d) (hnet : Differentiable ℝ (fun y => ∑ o, net y o))
    (a b : ℝ) (x : ℝ → RowBatch B d) (hx : SolvesOn (hnnForward net) a b x) (s t : ℝ) (hs : s ∈ Set.Icc a b)
    (ht : t ∈ Set.Icc a b) : ∑ o, net (x s) o = ∑ o, net (x t) o := by
  have hder : ∀ t ∈ Set.Icc a b, HasDerivWithinAt (fun s => ∑ o, net (x s) o) 0 (Set.Icc a b) t := by
    intro t ht
    have h := energy_deriv hx hnet ht
    have : (∑ k, ∑ i, autogradGrad (fun y => ∑ o, net y o) (x t) k i * hnnForward net (x t) k i) = 0 :=
      Finset.sum_eq_zero (fun k _ => hnn_orthogonal net hd (x t) k)
    rw [this] at h
    exact h
  have hconst := constant_of_derivWithin_zero (fun t ht => (hder t ht).differentiableWithinAt) (fun t ht => by
    have hab : a < b := lt_of_le_of_lt ht.1 ht.2
    exact (hder t ⟨ht.1, ht.2.le⟩).derivWithin (uniqueDiffOn_Icc hab t ⟨ht.1, ht.2.le⟩))
  rw [hconst s hs, hconst t ht]

theorem autogradGrad_perSample (H : (Fin d → ℝ) → ℝ) (hH : Differentiable ℝ H) (x : RowBatch B d) (b : B) (i : Fin d) :
    autogradGrad (fun y => ∑ k, H (y k)) x b i = fderiv ℝ H (x b) (Pi.single i 1) := by
  unfold autogradGrad
  have h : HasFDerivAt (fun y : RowBatch B d => ∑ k, H (y k))
      (∑ k, (fderiv ℝ H (x k)).comp (ContinuousLinearMap.proj k)) x := by
    refine HasFDerivAt.fun_sum (fun k _ => ?_)
    exact (hH (x k)).hasFDerivAt.comp x (ContinuousLinearMap.proj (R := ℝ) (φ := fun _ : B => Fin d → ℝ) k).hasFDerivAt
  rw [h.fderiv]
  simp only [sum_apply, ContinuousLinearMap.comp_apply, ContinuousLinearMap.proj_apply]
  rw [Finset.sum_eq_single b]
  · congr 1
    funext j
    simp [unitBatch, Pi.single_apply]
  · intro k _ hk
    have : unitBatch b i k = (0 : Fin d → ℝ) := by
      funext j
      simp [unitBatch, hk]
    rw [this, map_zero]
  · simp

/-- **C59**, per sample: when the network computes an energy `H` of each sample, every sample keeps its own energy. -/
theorem C59_sample_energy_conserved (H : (Fin d → ℝ) → ℝ) (hd : Even d) (hH : Differentiable ℝ H) (a b : ℝ)
    (x : ℝ → RowBatch B d) (hx : SolvesOn (hnnForward (fun y (k : B) => H (y k))) a b x) (k : B) (s t : ℝ)
    (hs : s ∈ Set.Icc a b) (ht : t ∈ Set.Icc a b) : H (x s k) = H (x t k) := by
  have hproj : Differentiable ℝ (fun y : RowBatch B d => H (y k)) := hH.comp (differentiable_pi.1 differentiable_id k)
  have hder : ∀ t ∈ Set.Icc a b, HasDerivWithinAt (fun s => H (x s k)) 0 (Set.Icc a b) t := by
    intro t ht
    have h := energy_deriv hx hproj ht
    have hz : (∑ k', ∑ i, autogradGrad (fun y : RowBatch B d => H (y k)) (x t) k' i *
        hnnForward (fun y (k : B) => H (y k)) (x t) k' i) = 0 := by
      rw [Finset.sum_eq_single k]
      · have ho := hnn_orthogonal (fun y (k : B) => H (y k)) hd (x t) k
        rw [← ho]
        refine Finset.sum_congr rfl (fun i _ => ?_)
        congr 1
        change _ = autogradGrad (fun y : RowBatch B d => ∑ k, H (y k)) (x t) k i
        rw [autogradGrad_perSample H hH]
        unfold autogradGrad
        have hc : HasFDerivAt (fun y : RowBatch B d => H (y k))
            ((fderiv ℝ H (x t k)).comp (ContinuousLinearMap.proj k)) (x t) :=
          (hH (x t k)).hasFDerivAt.comp (x t)
            (ContinuousLinearMap.proj (R := ℝ) (φ := fun _ : B => Fin d → ℝ) k).hasFDerivAt
        rw [hc.fderiv]
        simp only [ContinuousLinearMap.comp_apply, ContinuousLinearMap.proj_apply]
        congr 1
        funext j
        simp [unitBatch, Pi.single_apply]
      · intro k' _ hk'
        refine Finset.sum_eq_zero (fun i _ => ?_)
        have hc : HasFDerivAt (fun y : RowBatch B d => H (y k))
            ((fderiv ℝ H (x t k)).comp (ContinuousLinearMap.proj k)) (x t) :=
          (hH (x t k)).hasFDerivAt.comp (x t)
            (ContinuousLinearMap.proj (R := ℝ) (φ := fun _ : B => Fin d → ℝ) k).hasFDerivAt
        unfold autogradGrad
        rw [hc.fderiv]
        have : unitBatch k' i k = (0 : Fin d → ℝ) := by
          funext j
          simp [unitBatch, hk'.symm]
        simp [this]
      · simp
    rw [hz] at h
    exact h
  have hconst := constant_of_derivWithin_zero (fun t ht => (hder t ht).differentiableWithinAt) (fun t ht => by
    have hab : a < b := lt_of_le_of_lt ht.1 ht.2
    exact (hder t ⟨ht.1, ht.2.le⟩).derivWithin (uniqueDiffOn_Icc hab t ⟨ht.1, ht.2.le⟩))
  rw [hconst s hs, hconst t ht]

/-- **C60.** For every differentiable energy, the total energy is nonincreasing along every exact solution of the GNF
field. -/
theorem C60_energy_antitone (energy : RowBatch B d → O → ℝ) (he : Differentiable ℝ (fun y => ∑ o, energy y o)) (a b : ℝ)
    (x : ℝ → RowBatch B d) (hx : SolvesOn (gnfForward energy) a b x) :
    AntitoneOn (fun t => ∑ o, energy (x t) o) (Set.Icc a b) := by
  have hder : ∀ t ∈ Set.Icc a b, HasDerivWithinAt (fun s => ∑ o, energy (x s) o)
      (-∑ k, ∑ i, (autogradGrad (fun y => ∑ o, energy y o) (x t) k i) ^ 2) (Set.Icc a b) t := by
    intro t ht
    have h := energy_deriv hx he ht
    have e : (∑ k, ∑ i, autogradGrad (fun y => ∑ o, energy y o) (x t) k i * gnfForward energy (x t) k i) =
        -∑ k, ∑ i, (autogradGrad (fun y => ∑ o, energy y o) (x t) k i) ^ 2 := by
      simp only [← Finset.sum_neg_distrib]
      refine Finset.sum_congr rfl (fun k _ => Finset.sum_congr rfl (fun i _ => ?_))
      change _ * -autogradGrad (fun y => ∑ o, energy y o) (x t) k i = _
      ring
    rw [e] at h
    exact h
  refine antitoneOn_of_deriv_nonpos (convex_Icc a b) (fun t ht => (hder t ht).continuousWithinAt) ?_ ?_
  · intro t ht
    exact (hder t (interior_subset ht)).differentiableWithinAt.mono interior_subset
  · intro t ht
    have := (hder t (interior_subset ht)).hasDerivAt (mem_interior_iff_mem_nhds.1 ht)
    rw [this.deriv]
    exact neg_nonpos.2 (Finset.sum_nonneg (fun k _ => Finset.sum_nonneg (fun i _ => sq_nonneg _)))

/-- **C60**, the rate: the energy decreases at the rate of the squared norm of the field, so it is stationary only where
the field vanishes. -/
theorem C60_rate (energy : RowBatch B d → O → ℝ) (he : Differentiable ℝ (fun y => ∑ o, energy y o)) (a b : ℝ)
    (x : ℝ → RowBatch B d) (hx : SolvesOn (gnfForward energy) a b x) (t : ℝ) (ht : t ∈ Set.Icc a b) :
    HasDerivWithinAt (fun s => ∑ o, energy (x s) o) (-∑ k, ∑ i, (gnfForward energy (x t) k i) ^ 2) (Set.Icc a b) t := by
  have h := energy_deriv hx he ht
  have e : (∑ k, ∑ i, autogradGrad (fun y => ∑ o, energy y o) (x t) k i * gnfForward energy (x t) k i) =
      -∑ k, ∑ i, (gnfForward energy (x t) k i) ^ 2 := by
    simp only [← Finset.sum_neg_distrib]
    refine Finset.sum_congr rfl (fun k _ => Finset.sum_congr rfl (fun i _ => ?_))
    have : gnfForward energy (x t) k i = -autogradGrad (fun y => ∑ o, energy y o) (x t) k i := rfl
    rw [this]
    ring
  rw [e] at h
  exact h

end energy

/-- **C59 is false** for odd widths: with one column the field is the gradient itself, and the energy `H(x) = x` grows
along the solution `x(t) = t`. -/
theorem C59_odd_refuted :
    SolvesOn (hnnForward (fun (y : RowBatch Unit 1) (_ : Unit) => y () 0)) 0 1 (fun t _ _ => t) ∧
    Differentiable ℝ (fun y : RowBatch Unit 1 => y () 0) ∧
    ((fun (t : ℝ) (_ : Unit) (_ : Fin 1) => t) 0 () 0 ≠ (fun (t : ℝ) (_ : Unit) (_ : Fin 1) => t) 1 () 0) := by
  refine ⟨?_, by fun_prop, by norm_num⟩
  intro t _
  have hF : hnnForward (fun (y : RowBatch Unit 1) (_ : Unit) => y () 0) (fun _ _ => t) = fun _ _ => 1 := by
    funext u i
    fin_cases i
    simp only [hnnForward]
    rw [dif_pos (by simp)]
    have := autogradGrad_perSample (B := Unit) (fun z : Fin 1 → ℝ => z 0) (by fun_prop) (fun _ _ => t) () 0
    have e : (fun y : RowBatch Unit 1 => ∑ k, (fun z : Fin 1 → ℝ => z 0) (y k)) =
        outputSum (fun (y : RowBatch Unit 1) (_ : Unit) => y () 0) := by
      funext y
      simp [outputSum]
    rw [e] at this
    change autogradGrad (outputSum fun (y : RowBatch Unit 1) (_ : Unit) => y () 0) (fun _ _ => t) () 0 = 1
    rw [this]
    have h : HasFDerivAt (fun z : Fin 1 → ℝ => z 0) (ContinuousLinearMap.proj (R := ℝ) (φ := fun _ : Fin 1 => ℝ) 0)
        (fun _ => t) := (ContinuousLinearMap.proj (R := ℝ) (φ := fun _ : Fin 1 => ℝ) 0).hasFDerivAt
    rw [h.fderiv]
    simp
  rw [hF]
  exact hasDerivWithinAt_pi.2 (fun _ => hasDerivWithinAt_pi.2 (fun _ => hasDerivWithinAt_id t _))

theorem hnn_oscillator (y : RowBatch Unit 2) :
    hnnForward (fun (y : RowBatch Unit 2) (k : Unit) => (fun z : Fin 2 → ℝ => (z 0 ^ 2 + z 1 ^ 2) / 2) (y k)) y =
      fun u => ![y u 1, -y u 0] := by
  have hdiff : Differentiable ℝ (fun z : Fin 2 → ℝ => (z 0 ^ 2 + z 1 ^ 2) / 2) := by fun_prop
  have hg : ∀ (u : Unit) (i : Fin 2), autogradGrad
      (outputSum (fun (y : RowBatch Unit 2) (k : Unit) => (fun z : Fin 2 → ℝ => (z 0 ^ 2 + z 1 ^ 2) / 2) (y k))) y u i =
      y u i := by
    intro u i
    have := autogradGrad_perSample (B := Unit) _ hdiff y u i
    refine Eq.trans this ?_
    have h0 : HasFDerivAt (fun z : Fin 2 → ℝ => z 0) (ContinuousLinearMap.proj (R := ℝ) (φ := fun _ : Fin 2 => ℝ) 0)
        (y u) := (ContinuousLinearMap.proj (R := ℝ) (φ := fun _ : Fin 2 => ℝ) 0).hasFDerivAt
    have h1 : HasFDerivAt (fun z : Fin 2 → ℝ => z 1) (ContinuousLinearMap.proj (R := ℝ) (φ := fun _ : Fin 2 => ℝ) 1)
        (y u) := (ContinuousLinearMap.proj (R := ℝ) (φ := fun _ : Fin 2 => ℝ) 1).hasFDerivAt
    have h : HasFDerivAt (fun z : Fin 2 → ℝ => (z 0 ^ 2 + z 1 ^ 2) * (1 / 2)) _ (y u) :=
      ((h0.pow 2).add (h1.pow 2)).mul_const (1 / 2 : ℝ)
    have e : (fun z : Fin 2 → ℝ => (z 0 ^ 2 + z 1 ^ 2) / 2) = fun z => (z 0 ^ 2 + z 1 ^ 2) * (1 / 2) := by
      funext z
      ring
    rw [e]
    rw [h.fderiv]
    fin_cases i <;> simp
  funext u i
  fin_cases i
  · simp only [hnnForward]
    rw [dif_pos (by simp), hg]
    rfl
  · simp only [hnnForward]
    rw [dif_neg (by simp), hg]
    rfl

/-- The hypotheses of C59 are met by a non-constant motion: the harmonic oscillator `H = (q² + p²) / 2` and the solution
`(sin t, cos t)`. -/
example : SolvesOn (hnnForward (fun (y : RowBatch Unit 2) (k : Unit) => (fun z : Fin 2 → ℝ => (z 0 ^ 2 + z 1 ^ 2) / 2) (y k)))
    0 10 (fun t _ => ![Real.sin t, Real.cos t]) := by
  intro t _
  rw [hnn_oscillator]
  refine hasDerivWithinAt_pi.2 (fun u => hasDerivWithinAt_pi.2 (fun i => ?_))
  fin_cases i
  · exact (Real.hasDerivAt_sin t).hasDerivWithinAt
  · exact (Real.hasDerivAt_cos t).hasDerivWithinAt

/-- The hypotheses of C60 are met by a non-constant motion: energy `x`, solution `-t`. -/
example : SolvesOn (gnfForward (fun (y : RowBatch Unit 1) (_ : Unit) => y () 0)) 0 10 (fun t _ _ => -t) := by
  intro t _
  have hF : gnfForward (fun (y : RowBatch Unit 1) (_ : Unit) => y () 0) (fun _ _ => -t) = fun _ _ => -1 := by
    funext u i
    fin_cases i
    have := autogradGrad_perSample (B := Unit) (fun z : Fin 1 → ℝ => z 0) (by fun_prop) (fun _ _ => -t) () 0
    have e : (fun y : RowBatch Unit 1 => ∑ k, (fun z : Fin 1 → ℝ => z 0) (y k)) =
        outputSum (fun (y : RowBatch Unit 1) (_ : Unit) => y () 0) := by
      funext y
      simp [outputSum]
    rw [e] at this
    change -autogradGrad (outputSum fun (y : RowBatch Unit 1) (_ : Unit) => y () 0) (fun _ _ => -t) () 0 = -1
    rw [this]
    have h : HasFDerivAt (fun z : Fin 1 → ℝ => z 0) (ContinuousLinearMap.proj (R := ℝ) (φ := fun _ : Fin 1 => ℝ) 0)
        (fun _ => -t) := (ContinuousLinearMap.proj (R := ℝ) (φ := fun _ : Fin 1 => ℝ) 0).hasFDerivAt
    rw [h.fderiv]
    simp
  rw [hF]
  exact hasDerivWithinAt_pi.2 (fun _ => hasDerivWithinAt_pi.2 (fun _ => (hasDerivAt_neg t).hasDerivWithinAt))

/-! ### C76 -/

section lagrangian

variable {n : Nat}

/-- A pseudo-inverse in the sense used here: `M P M = M` (the first Penrose condition). -/
def IsPseudoInverse (pinv : Matrix (Fin n) (Fin n) ℝ → Matrix (Fin n) (Fin n) ℝ) : Prop := ∀ M, M * pinv M * M = M

theorem pinv_eq_inv {pinv : Matrix (Fin n) (Fin n) ℝ → Matrix (Fin n) (Fin n) ℝ} (hp : IsPseudoInverse pinv)
    (M : Matrix (Fin n) (Fin n) ℝ) (hM : IsUnit M.det) : M * pinv M = 1 := by
  have h := congrArg (· * M⁻¹) (hp M)
  simp only [Matrix.mul_assoc, Matrix.mul_nonsing_inv M hM, Matrix.mul_one] at h
  exact h

theorem clm_sum_apply (L : QQd n →L[ℝ] ℝ) (v : QQd n) :
    L v = ∑ i, L (Pi.single (.inl i) 1) * v (.inl i) + ∑ i, L (Pi.single (.inr i) 1) * v (.inr i) := by
  conv_lhs => rw [← Finset.univ_sum_single v]
  rw [map_sum, Fintype.sum_sum_type]
  congr 1 <;>
  · refine Finset.sum_congr rfl (fun i _ => ?_)
    have : ∀ a, (Pi.single a (v a) : QQd n) = v a • Pi.single a 1 := by
      intro a
      rw [← Pi.single_smul]
      simp
    rw [this, map_smul, smul_eq_mul, mul_comm]

theorem lnnJac_differentiable (lag : QQd n → ℝ) (hl : ContDiff ℝ 2 lag) (a : Fin n ⊕ Fin n) :
    Differentiable ℝ (fun y => lnnJac lag y a) := by
  have h : ContDiff ℝ 1 (fderiv ℝ lag) := hl.fderiv_right (by norm_num)
  exact (h.differentiable (by norm_num)).clm_apply (differentiable_const _)

/-- **C76.** Where the mass matrix `∂²L/∂q̇²` is invertible, the LNN field satisfies the Euler–Lagrange equation: along
every exact solution the momentum `∂L/∂q̇` changes at the rate `∂L/∂q`. -/
theorem C76_euler_lagrange {pinv : Matrix (Fin n) (Fin n) ℝ → Matrix (Fin n) (Fin n) ℝ} (hp : IsPseudoInverse pinv)
    (lag : QQd n → ℝ) (hl : ContDiff ℝ 2 lag)
    (hM : ∀ y, IsUnit (Matrix.det (Matrix.of fun i j => lnnHess lag y (.inr i) (.inr j)))) (a b : ℝ) (x : ℝ → QQd n)
    (hx : SolvesOn (lnnForward pinv lag) a b x) (t : ℝ) (ht : t ∈ Set.Icc a b) (i : Fin n) :
    HasDerivWithinAt (fun s => fderiv ℝ lag (x s) (Pi.single (.inr i) 1))
      (fderiv ℝ lag (x t) (Pi.single (.inl i) 1)) (Set.Icc a b) t := by
  have h := ((lnnJac_differentiable lag hl (.inr i)) (x t)).hasFDerivAt.comp_hasDerivWithinAt t (hx t ht)
  have e : (fderiv ℝ (fun y => lnnJac lag y (.inr i)) (x t)) (lnnForward pinv lag (x t)) =
      lnnJac lag (x t) (.inl i) := by
    rw [clm_sum_apply]
    set M : Matrix (Fin n) (Fin n) ℝ := Matrix.of fun i j => lnnHess lag (x t) (.inr i) (.inr j) with hMd
    set r : Fin n → ℝ := fun i => lnnJac lag (x t) (.inl i) - ∑ j, lnnHess lag (x t) (.inr i) (.inl j) * x t (.inr j)
      with hr
    have e2 : ∑ j, (fderiv ℝ (fun y => lnnJac lag y (.inr i)) (x t)) (Pi.single (.inr j) 1) *
        lnnForward pinv lag (x t) (.inr j) = (M.mulVec ((pinv M).mulVec r)) i := rfl
    have e1 : ∑ j, (fderiv ℝ (fun y => lnnJac lag y (.inr i)) (x t)) (Pi.single (.inl j) 1) *
        lnnForward pinv lag (x t) (.inl j) = ∑ j, lnnHess lag (x t) (.inr i) (.inl j) * x t (.inr j) := rfl
    rw [e1, e2, Matrix.mulVec_mulVec, pinv_eq_inv hp M (hM _), Matrix.one_mulVec, hr]
    ring
  rw [e] at h
  exact h

/-- **C76.** and the velocity is the derivative of the position. -/
theorem C76_velocity (pinv : Matrix (Fin n) (Fin n) ℝ → Matrix (Fin n) (Fin n) ℝ) (lag : QQd n → ℝ) (a b : ℝ)
    (x : ℝ → QQd n) (hx : SolvesOn (lnnForward pinv lag) a b x) (t : ℝ) (ht : t ∈ Set.Icc a b) (i : Fin n) :
    HasDerivWithinAt (fun s => x s (.inl i)) (x t (.inr i)) (Set.Icc a b) t :=
  hasDerivWithinAt_pi.1 (hx t ht) (.inl i)

/-- **C76.** Hence the energy `q̇ · ∂L/∂q̇ - L` is constant along every exact solution. -/
theorem C76_energy {pinv : Matrix (Fin n) (Fin n) ℝ → Matrix (Fin n) (Fin n) ℝ} (hp : IsPseudoInverse pinv)
    (lag : QQd n → ℝ) (hl : ContDiff ℝ 2 lag)
    (hM : ∀ y, IsUnit (Matrix.det (Matrix.of fun i j => lnnHess lag y (.inr i) (.inr j)))) (a b : ℝ) (x : ℝ → QQd n)
    (hx : SolvesOn (lnnForward pinv lag) a b x) (s t : ℝ) (hs : s ∈ Set.Icc a b) (ht : t ∈ Set.Icc a b) :
    (∑ i, x s (.inr i) * fderiv ℝ lag (x s) (Pi.single (.inr i) 1)) - lag (x s) =
      (∑ i, x t (.inr i) * fderiv ℝ lag (x t) (Pi.single (.inr i) 1)) - lag (x t) := by
  have hder : ∀ t ∈ Set.Icc a b, HasDerivWithinAt
      (fun s => (∑ i, x s (.inr i) * fderiv ℝ lag (x s) (Pi.single (.inr i) 1)) - lag (x s)) 0 (Set.Icc a b) t := by
    intro t ht
    have h1 : HasDerivWithinAt (fun s => lag (x s)) _ (Set.Icc a b) t :=
      ((hl.differentiable (by norm_num)) (x t)).hasFDerivAt.comp_hasDerivWithinAt t (hx t ht)
    have h2 := HasDerivWithinAt.fun_sum (u := Finset.univ) (fun i (_ : i ∈ Finset.univ) =>
      (hasDerivWithinAt_pi.1 (hx t ht) (.inr i)).fun_mul (C76_euler_lagrange hp lag hl hM a b x hx t ht i))
    have h3 := h2.fun_sub h1
    refine h3.congr_deriv ?_
    rw [clm_sum_apply]
    rw [Finset.sum_add_distrib]
    have : ∀ i : Fin n, lnnForward pinv lag (x t) (.inl i) = x t (.inr i) := fun i => rfl
    simp only [this]
    have c1 : ∑ i, (fderiv ℝ lag (x t)) (Pi.single (.inl i) 1) * x t (.inr i) =
        ∑ i, x t (.inr i) * (fderiv ℝ lag (x t)) (Pi.single (.inl i) 1) :=
      Finset.sum_congr rfl (fun i _ => mul_comm _ _)
    have c2 : ∑ i, (fderiv ℝ lag (x t)) (Pi.single (.inr i) 1) * lnnForward pinv lag (x t) (.inr i) =
        ∑ i, lnnForward pinv lag (x t) (.inr i) * (fderiv ℝ lag (x t)) (Pi.single (.inr i) 1) :=
      Finset.sum_congr rfl (fun i _ => mul_comm _ _)
    rw [c1, c2]
    ring
  have hconst := constant_of_derivWithin_zero (fun t ht => (hder t ht).differentiableWithinAt) (fun t ht => by
    have hab : a < b := lt_of_le_of_lt ht.1 ht.2
    exact (hder t ⟨ht.1, ht.2.le⟩).derivWithin (uniqueDiffOn_Icc hab t ⟨ht.1, ht.2.le⟩))
  rw [hconst s hs, hconst t ht]

end lagrangian

/-- The Lagrangian of the harmonic oscillator. -/
noncomputable def oscLag (y : QQd 1) : ℝ := (y (.inr 0) ^ 2 - y (.inl 0) ^ 2) * (1 / 2)

theorem oscLag_fderiv (y v : QQd 1) : fderiv ℝ oscLag y v = y (.inr 0) * v (.inr 0) - y (.inl 0) * v (.inl 0) := by
  have h0 : HasFDerivAt (fun z : QQd 1 => z (.inl 0))
      (ContinuousLinearMap.proj (R := ℝ) (φ := fun _ : Fin 1 ⊕ Fin 1 => ℝ) (.inl 0)) y :=
    (ContinuousLinearMap.proj (R := ℝ) (φ := fun _ : Fin 1 ⊕ Fin 1 => ℝ) (.inl 0)).hasFDerivAt
  have h1 : HasFDerivAt (fun z : QQd 1 => z (.inr 0))
      (ContinuousLinearMap.proj (R := ℝ) (φ := fun _ : Fin 1 ⊕ Fin 1 => ℝ) (.inr 0)) y :=
    (ContinuousLinearMap.proj (R := ℝ) (φ := fun _ : Fin 1 ⊕ Fin 1 => ℝ) (.inr 0)).hasFDerivAt
  have h : HasFDerivAt oscLag _ y := ((h1.pow 2).sub (h0.pow 2)).mul_const (1 / 2 : ℝ)
  rw [h.fderiv]
  simp
  ring

theorem oscLag_hess (y : QQd 1) : lnnHess oscLag y (.inr 0) (.inr 0) = 1 := by
  unfold lnnHess lnnJac
  have e : (fun z : QQd 1 => fderiv ℝ oscLag z (Pi.single (.inr 0) 1)) = fun z => z (.inr 0) := by
    funext z
    rw [oscLag_fderiv]
    simp
  rw [e]
  have h1 : HasFDerivAt (fun z : QQd 1 => z (.inr 0))
      (ContinuousLinearMap.proj (R := ℝ) (φ := fun _ : Fin 1 ⊕ Fin 1 => ℝ) (.inr 0)) y :=
    (ContinuousLinearMap.proj (R := ℝ) (φ := fun _ : Fin 1 ⊕ Fin 1 => ℝ) (.inr 0)).hasFDerivAt
  rw [h1.fderiv]
  simp

/-- The hypotheses of C76 are met: the harmonic oscillator has an invertible mass matrix, and its field is the expected
one, with solution `(sin t, cos t)`. -/
example : ContDiff ℝ 2 oscLag ∧ (∀ y, IsUnit (Matrix.det (Matrix.of fun i j => lnnHess oscLag y (.inr i) (.inr j)))) ∧
    IsPseudoInverse (fun M : Matrix (Fin 1) (Fin 1) ℝ => Matrix.of fun _ _ => (M 0 0)⁻¹) ∧
    SolvesOn (lnnForward (fun M : Matrix (Fin 1) (Fin 1) ℝ => Matrix.of fun _ _ => (M 0 0)⁻¹) oscLag) 0 10
      (fun t => Sum.elim (fun _ => Real.sin t) (fun _ => Real.cos t)) := by
  have hh : ∀ y (i j : Fin 1), lnnHess oscLag y (.inr i) (.inr j) = 1 := by
    intro y i j
    fin_cases i
    fin_cases j
    exact oscLag_hess y
  refine ⟨?_, ?_, ?_, ?_⟩
  · unfold oscLag
    fun_prop
  · intro y
    rw [Matrix.det_fin_one, Matrix.of_apply, hh]
    exact isUnit_one
  · intro M
    ext i j
    fin_cases i
    fin_cases j
    simp only [Matrix.mul_apply, Finset.univ_unique, Finset.sum_singleton]
    by_cases h : M 0 0 = 0
    · simp [h]
    · simp [h]
  · intro t _
    refine hasDerivWithinAt_pi.2 (fun a => ?_)
    rcases a with a | a
    · exact (Real.hasDerivAt_sin t).hasDerivWithinAt
    · fin_cases a
      have e : lnnForward (fun M : Matrix (Fin 1) (Fin 1) ℝ => Matrix.of fun _ _ => (M 0 0)⁻¹) oscLag
          (Sum.elim (fun _ => Real.sin t) (fun _ => Real.cos t)) (.inr 0) = -Real.sin t := by
        have h10 : lnnHess oscLag (Sum.elim (fun _ => Real.sin t) (fun _ => Real.cos t)) (.inr 0) (.inl 0) = 0 := by
          unfold lnnHess lnnJac
          have e : (fun z : QQd 1 => fderiv ℝ oscLag z (Pi.single (.inr 0) 1)) = fun z => z (.inr 0) := by
            funext z
            rw [oscLag_fderiv]
            simp
          rw [e]
          have h1 : HasFDerivAt (fun z : QQd 1 => z (.inr 0))
              (ContinuousLinearMap.proj (R := ℝ) (φ := fun _ : Fin 1 ⊕ Fin 1 => ℝ) (.inr 0))
              (Sum.elim (fun _ => Real.sin t) (fun _ => Real.cos t)) :=
            (ContinuousLinearMap.proj (R := ℝ) (φ := fun _ : Fin 1 ⊕ Fin 1 => ℝ) (.inr 0)).hasFDerivAt
          rw [h1.fderiv]
          simp
        simp [lnnForward, lnnQdd, hh, lnnJac, oscLag_fderiv, Matrix.mulVec, dotProduct, h10]
      have := (Real.hasDerivAt_cos t).hasDerivWithinAt (s := Set.Icc 0 10)
      rw [← e] at this
      exact this

/-! ### C77 -/

/-- **C77 is false**: whatever the energy and the interconnection matrix would give, the field raises
`AttributeError`. -/
theorem C77_conservative_snf_refuted {R : Type} (compute : R) :
    conservativeSnfForward compute = .error .attributeError := by
  unfold conservativeSnfForward
  rw [if_pos (by decide)]
  rfl

end Torchdyn
