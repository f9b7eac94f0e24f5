import Verif.Proofs.Ode
import Verif.Props.Cnf
import Mathlib.MeasureTheory.Function.Jacobian
import Mathlib.MeasureTheory.Measure.Haar.OfBasis
import Mathlib.Analysis.SpecialFunctions.ExpDeriv
import Mathlib.LinearAlgebra.Matrix.Adjugate

/-!
Property C97: the first column of a `CNF` computes the exact change of log-density (Liouville's formula).
-/

set_option linter.unusedSectionVars false

namespace Torchdyn

open Set Matrix

/-! ### Jacobi's formula -/

theorem det_deriv {d : ℕ} {J : ℝ → Matrix (Fin d) (Fin d) ℝ} {J' : Matrix (Fin d) (Fin d) ℝ} {s : Set ℝ} {t : ℝ}
    (h : ∀ i j, HasDerivWithinAt (fun t => J t i j) (J' i j) s t) :
    HasDerivWithinAt (fun t => (J t).det) (trace ((J t).adjugate * J')) s t := by
  have h1 : HasDerivWithinAt (fun t => ∑ σ : Equiv.Perm (Fin d), (Equiv.Perm.sign σ : ℝ) * ∏ i, J t (σ i) i)
      (∑ σ : Equiv.Perm (Fin d), (Equiv.Perm.sign σ : ℝ) *
        ∑ i, (∏ j ∈ Finset.univ.erase i, J t (σ j) j) * J' (σ i) i) s t := by
    refine HasDerivWithinAt.fun_sum fun σ _ => HasDerivWithinAt.const_mul _ ?_
    have := HasDerivWithinAt.fun_finsetProd (u := Finset.univ) (f := fun i t => J t (σ i) i)
      (f' := fun i => J' (σ i) i) (fun i _ => h (σ i) i)
    simpa only [smul_eq_mul] using this
  have e0 : (fun t => (J t).det) = fun t => ∑ σ : Equiv.Perm (Fin d), (Equiv.Perm.sign σ : ℝ) * ∏ i, J t (σ i) i := by
    funext t
    rw [det_apply']
  rw [e0]
  refine h1.congr_deriv ?_
  have e1 : ∀ i, ((J t).adjugate * J') i i =
      ∑ σ : Equiv.Perm (Fin d), (Equiv.Perm.sign σ : ℝ) * ((∏ j ∈ Finset.univ.erase i, J t (σ j) j) * J' (σ i) i) := by
    intro i
    have e2 : ((J t).adjugate * J') i i = ((J t).updateCol i (fun k => J' k i)).det := by
      rw [← cramer_apply, cramer_eq_adjugate_mulVec]
      rfl
    rw [e2, det_apply']
    refine Finset.sum_congr rfl fun σ _ => ?_
    congr 1
    rw [← Finset.mul_prod_erase Finset.univ _ (Finset.mem_univ i), mul_comm, updateCol_self]
    congr 1
    refine Finset.prod_congr rfl fun j hj => ?_
    rw [updateCol_ne (Finset.ne_of_mem_erase hj)]
  simp only [trace, diag_apply, e1, Finset.mul_sum]
  rw [Finset.sum_comm]

theorem det_deriv_linear {d : ℕ} {J : ℝ → Matrix (Fin d) (Fin d) ℝ} {A : Matrix (Fin d) (Fin d) ℝ} {s : Set ℝ} {t : ℝ}
    (h : ∀ i j, HasDerivWithinAt (fun t => J t i j) ((A * J t) i j) s t) :
    HasDerivWithinAt (fun t => (J t).det) (trace A * (J t).det) s t := by
  refine (det_deriv h).congr_deriv ?_
  rw [← Matrix.mul_assoc, trace_mul_comm, ← Matrix.mul_assoc, mul_adjugate, smul_mul, Matrix.one_mul, trace_smul,
    smul_eq_mul, mul_comm]

/-! ### The flow of the network -/

variable {B : Type} [Fintype B] [DecidableEq B] {d : ℕ}

/-- `φ x` is the solution of `y' = g y` on `[a, b]` that starts at `x`. -/
def IsFlow (g : (Fin d → ℝ) → (Fin d → ℝ)) (a b : ℝ) (φ : (Fin d → ℝ) → ℝ → (Fin d → ℝ)) : Prop :=
  ∀ x, φ x a = x ∧ SolutionOn (fun _ => g) (φ x) a b

/-- `Z` is an exact solution of the differential equation of the `CNF` module with network `g` (exact trace), for a whole
batch. -/
def SolvesCnf (g : (Fin d → ℝ) → (Fin d → ℝ)) (a b : ℝ) (Z : ℝ → RowBatch B (d + 1)) : Prop :=
  ∀ t ∈ Icc a b, ∃ out, (Cnf.mk (fun y k => g (y k)) .autograd 1 none).forward (Z t) = .ok out ∧
    HasDerivWithinAt Z out (Icc a b) t

theorem SolvesCnf.sample {g : (Fin d → ℝ) → (Fin d → ℝ)} (hg : ContDiff ℝ 1 g) (hd : 0 < d) {a b : ℝ}
    {Z : ℝ → RowBatch B (d + 1)} (hZ : SolvesCnf g a b Z) (k : B) :
    SolutionOn (fun _ => g) (fun t i => Z t k i.succ) a b ∧
    ∀ t ∈ Icc a b, HasDerivWithinAt (fun t => Z t k 0) (-divergence g (fun i => Z t k i.succ)) (Icc a b) t := by
  have key : ∀ t ∈ Icc a b, HasDerivWithinAt (fun t => Z t k 0) (-divergence g (fun i => Z t k i.succ)) (Icc a b) t ∧
      HasDerivWithinAt (fun t i => Z t k (Fin.succ i)) (g (fun i => Z t k i.succ)) (Icc a b) t := by
    intro t ht
    obtain ⟨out, h, hder⟩ := hZ t ht
    obtain ⟨out', h', ho⟩ := C61_forward g (hg.differentiable one_ne_zero) hd 1 le_rfl none (Z t)
    rw [h] at h'
    have := Except.ok.inj h'
    subst this
    have hk := hasDerivWithinAt_pi.1 (hasDerivWithinAt_pi.1 hder k)
    refine ⟨by rw [← (ho k).1]; exact hk 0, hasDerivWithinAt_pi.2 fun i => ?_⟩
    rw [← (ho k).2 i]
    exact hk i.succ
  exact ⟨fun t ht => (key t ht).2, fun t ht => (key t ht).1⟩

theorem cont_fderiv {g : (Fin d → ℝ) → (Fin d → ℝ)} (hg : ContDiff ℝ 1 g) :
    Continuous fun p : ℝ × (Fin d → ℝ) => fderiv ℝ g p.2 :=
  (hg.continuous_fderiv one_ne_zero).comp continuous_snd

/-- The matrix of a linear map of `ℝ^d`. -/
noncomputable def jacMatrix (A : (Fin d → ℝ) →L[ℝ] (Fin d → ℝ)) : Matrix (Fin d) (Fin d) ℝ :=
  Matrix.of fun i j => A (Pi.single j 1) i

theorem jacMatrix_mulVec (A : (Fin d → ℝ) →L[ℝ] (Fin d → ℝ)) (v : Fin d → ℝ) : (jacMatrix A).mulVec v = A v := by
  have : v = ∑ j, v j • (Pi.single j 1 : Fin d → ℝ) := by
    funext i
    simp [Finset.sum_apply, Pi.single_apply]
  conv_rhs => rw [this, map_sum]
  funext i
  simp only [jacMatrix, mulVec, dotProduct, Matrix.of_apply, map_smul, Finset.sum_apply, Pi.smul_apply, smul_eq_mul]
  exact Finset.sum_congr rfl fun j _ => mul_comm _ _

/-- Fundamental matrix of the variational equation along a solution. -/
theorem exists_fundamental {g : (Fin d → ℝ) → (Fin d → ℝ)} (hg : ContDiff ℝ 1 g) {a b : ℝ} (hab : a ≤ b)
    {y : ℝ → Fin d → ℝ} (hy : SolutionOn (fun _ => g) y a b) :
    ∃ J : ℝ → Matrix (Fin d) (Fin d) ℝ, J a = 1 ∧
      ∀ t ∈ Icc a b, ∀ i j, HasDerivWithinAt (fun t => J t i j) ((jacMatrix (fderiv ℝ g (y t)) * J t) i j) (Icc a b) t := by
  obtain ⟨R, hR⟩ := (isCompact_Icc.image_of_continuousOn hy.continuousOn).isBounded.subset_closedBall (0 : Fin d → ℝ)
  obtain ⟨K, -, -, hK⟩ := lipschitz_on_ball (g := fun _ => g) (cont_fderiv hg)
    (fun _ => hg.differentiable one_ne_zero) a b R
  have hex : ∀ j : Fin d, ∃ u : ℝ → Fin d → ℝ, u a = Pi.single j 1 ∧
      ∀ t ∈ Icc a b, HasDerivWithinAt u (fderiv ℝ g (y t) (u t)) (Icc a b) t := by
    intro j
    refine exists_solution (F := fun t v => fderiv ℝ g (y t) v) hab K (fun t ht => ?_) (fun x => ?_) _
    · exact (fderiv ℝ g (y t)).lipschitz.weaken (hK t ht (y t) (hR (mem_image_of_mem _ ht)))
    · exact ((hg.continuous_fderiv one_ne_zero).comp_continuousOn hy.continuousOn).clm_apply continuousOn_const
  choose u hu0 hu using hex
  refine ⟨fun t => Matrix.of fun i j => u j t i, ?_, fun t ht i j => ?_⟩
  · ext i j
    change u j a i = _
    rw [hu0, Matrix.one_apply, Pi.single_apply]
  · have h := hasDerivWithinAt_pi.1 (hu j t ht) i
    refine h.congr_deriv ?_
    rw [← jacMatrix_mulVec]
    rfl

/-- A fundamental matrix is the derivative of the flow. -/
theorem flow_hasFDerivAt {g : (Fin d → ℝ) → (Fin d → ℝ)} (hg : ContDiff ℝ 1 g) {a b : ℝ} (hab : a ≤ b)
    {φ : (Fin d → ℝ) → ℝ → (Fin d → ℝ)} (hφ : IsFlow g a b φ) (x0 : Fin d → ℝ)
    {J : ℝ → Matrix (Fin d) (Fin d) ℝ} (hJ0 : J a = 1)
    (hJ : ∀ t ∈ Icc a b, ∀ i j, HasDerivWithinAt (fun t => J t i j) ((jacMatrix (fderiv ℝ g (φ x0 t)) * J t) i j)
      (Icc a b) t) :
    HasFDerivAt (fun x => φ x b) (LinearMap.toContinuousLinearMap (Matrix.toLin' (J b))) x0 := by
  rw [hasFDerivAt_iff_isLittleO, Asymptotics.isLittleO_iff]
  intro η hη
  obtain ⟨δ, hδ, h⟩ := solution_remainder (g := fun _ => g) (cont_fderiv hg) (fun _ => hg.differentiable one_ne_zero)
    (hφ x0).2 η hη
  filter_upwards [Metric.closedBall_mem_nhds x0 hδ] with x hx
  rw [mem_closedBall_iff_norm] at hx
  have hu : SolutionOn (fun t v => fderiv ℝ g (φ x0 t) v) (fun t => (J t).mulVec (x - x0)) a b := by
    intro t ht
    refine hasDerivWithinAt_pi.2 fun i => ?_
    have h1 : HasDerivWithinAt (fun t => ∑ j, J t i j * (x - x0) j)
        (∑ j, (jacMatrix (fderiv ℝ g (φ x0 t)) * J t) i j * (x - x0) j) (Icc a b) t :=
      HasDerivWithinAt.fun_sum fun j _ => (hJ t ht i j).mul_const _
    refine h1.congr_deriv ?_
    change ((jacMatrix (fderiv ℝ g (φ x0 t)) * J t).mulVec (x - x0)) i = fderiv ℝ g (φ x0 t) ((J t).mulVec (x - x0)) i
    rw [← jacMatrix_mulVec, mulVec_mulVec]
  have := h (φ x) (fun t => (J t).mulVec (x - x0)) (hφ x).2 hu (by rw [hJ0, one_mulVec, (hφ x).1, (hφ x0).1])
    (by rw [(hφ x).1, (hφ x0).1]; exact hx) b ⟨hab, le_rfl⟩
  rw [(hφ x).1, (hφ x0).1] at this
  simpa using this

/-- **C97.** Liouville's formula for the module: along every solution of the CNF equation on `[a, b]`, for every sample
`k` of the batch, the flow map of the network from time `a` to time `b` is differentiable at the initial data, with
determinant `exp(ℓ(a) - ℓ(b))` where `ℓ` is column `0`: the column accumulates minus the log-determinant. -/
theorem C97_log_det {g : (Fin d → ℝ) → (Fin d → ℝ)} (hg : ContDiff ℝ 1 g) (hd : 0 < d) {a b : ℝ} (hab : a ≤ b)
    {φ : (Fin d → ℝ) → ℝ → (Fin d → ℝ)} (hφ : IsFlow g a b φ) {Z : ℝ → RowBatch B (d + 1)} (hZ : SolvesCnf g a b Z)
    (k : B) :
    (∀ i : Fin d, Z b k i.succ = φ (fun i => Z a k i.succ) b i) ∧
    ∃ D : (Fin d → ℝ) →L[ℝ] (Fin d → ℝ), HasFDerivAt (fun x => φ x b) D (fun i => Z a k i.succ) ∧
      D.det = Real.exp (Z a k 0 - Z b k 0) := by
  obtain ⟨hx, hl⟩ := hZ.sample hg hd k
  have hxφ : ∀ t ∈ Icc a b, (fun i : Fin d => Z t k i.succ) = φ (fun i => Z a k i.succ) t := by
    refine solution_unique (g := fun _ => g) (cont_fderiv hg) (fun _ => hg.differentiable one_ne_zero)
      (hφ (fun i => Z a k i.succ)).2 hx ?_
    rw [(hφ _).1]
  refine ⟨fun i => congrFun (hxφ b ⟨hab, le_rfl⟩) i, ?_⟩
  obtain ⟨J, hJ0, hJ⟩ := exists_fundamental hg hab (hφ (fun i => Z a k i.succ)).2
  refine ⟨_, flow_hasFDerivAt hg hab hφ _ hJ0 hJ, ?_⟩
  have hcons : ∀ t ∈ Icc a b, HasDerivWithinAt (fun t => (J t).det * Real.exp (Z t k 0)) 0 (Icc a b) t := by
    intro t ht
    have h1 := det_deriv_linear (hJ t ht)
    have h2 := (hl t ht).exp
    refine (h1.mul h2).congr_deriv ?_
    have e : trace (jacMatrix (fderiv ℝ g (φ (fun i => Z a k i.succ) t))) = divergence g (fun i => Z t k i.succ) := by
      rw [divergence_eq_sum, hxφ t ht]
      rfl
    rw [e]
    ring
  have hconst := constant_of_derivWithin_zero (f := fun t => (J t).det * Real.exp (Z t k 0)) (a := a) (b := b)
    (fun t ht => (hcons t ht).differentiableWithinAt)
    (fun t ht => by
      have hne : a < b := ht.1.trans_lt ht.2
      exact (hcons t ⟨ht.1, ht.2.le⟩).derivWithin (uniqueDiffOn_Icc hne t ⟨ht.1, ht.2.le⟩)) b ⟨hab, le_rfl⟩
  simp only [hJ0, det_one, one_mul] at hconst
  have : ((LinearMap.toContinuousLinearMap (Matrix.toLin' (J b))) : (Fin d → ℝ) →L[ℝ] (Fin d → ℝ)).det = (J b).det := by
    rw [ContinuousLinearMap.det]
    simp
  rw [this, Real.exp_sub, ← hconst]
  field_simp

/-! ### Densities -/

open MeasureTheory

/-- The flow from time `a` to time `b` is injective. -/
theorem flow_injective {g : (Fin d → ℝ) → (Fin d → ℝ)} (hg : ContDiff ℝ 1 g) {a b : ℝ} (hab : a ≤ b)
    {φ : (Fin d → ℝ) → ℝ → (Fin d → ℝ)} (hφ : IsFlow g a b φ) : Function.Injective (fun x => φ x b) := by
  intro x x' h
  -- reverse time
  have hrev : ∀ x, SolutionOn (fun _ y => -g y) (fun t => φ x (-t)) (-b) (-a) := by
    intro x t ht
    have h1 := (hφ x).2 (-t) ⟨by linarith [ht.2], by linarith [ht.1]⟩
    have h2 := HasDerivWithinAt.scomp (h := fun t : ℝ => -t) t h1 (hasDerivWithinAt_neg t (Icc (-b) (-a)))
      (fun s hs => ⟨by linarith [hs.2], by linarith [hs.1]⟩)
    simpa [Function.comp_def] using h2
  have hgn : ContDiff ℝ 1 fun y => -g y := hg.neg
  have := solution_unique (g := fun _ y => -g y) (cont_fderiv hgn) (fun _ => hgn.differentiable one_ne_zero) (hrev x')
    (hrev x) (by simpa using h) (-a) ⟨by linarith, le_rfl⟩
  simpa [(hφ x).1, (hφ x').1] using this

/-- **C97.** Change of variables with the module's first column: let `ℓ x` be the value of column `0` at time `b` when the
CNF starts from data `x` with column `0` equal to zero. Then for every measurable set of data `S` and every (vector-valued)
`p`, `∫ p` over the transported set is `∫ p(φ x) exp(-ℓ x)` over `S`: `log p(φ x) - ℓ x` is the log-density of the
data. -/
theorem C97_density {g : (Fin d → ℝ) → (Fin d → ℝ)} (hg : ContDiff ℝ 1 g) (hd : 0 < d) {a b : ℝ} (hab : a ≤ b)
    {φ : (Fin d → ℝ) → ℝ → (Fin d → ℝ)} (hφ : IsFlow g a b φ) (ℓ : (Fin d → ℝ) → ℝ)
    (hℓ : ∀ x, ∃ Z : ℝ → RowBatch Unit (d + 1), SolvesCnf g a b Z ∧ Z a () = Fin.cons 0 x ∧ Z b () 0 = ℓ x)
    {S : Set (Fin d → ℝ)} (hS : MeasurableSet S) (p : (Fin d → ℝ) → ℝ) :
    ∫ y in (fun x => φ x b) '' S, p y = ∫ x in S, Real.exp (-ℓ x) * p (φ x b) := by
  have hD : ∀ x, ∃ D : (Fin d → ℝ) →L[ℝ] (Fin d → ℝ), HasFDerivAt (fun x => φ x b) D x ∧
      D.det = Real.exp (-ℓ x) := by
    intro x
    obtain ⟨Z, hZ, hZa, hZb⟩ := hℓ x
    obtain ⟨-, D, hD, hdet⟩ := C97_log_det hg hd hab hφ hZ ()
    have e : (fun i : Fin d => Z a () i.succ) = x := by
      rw [hZa]
      funext i
      simp
    rw [e] at hD
    refine ⟨D, hD, ?_⟩
    rw [hdet, hZa, hZb, Fin.cons_zero, zero_sub]
  choose D hD hdet using hD
  have := integral_image_eq_integral_abs_det_fderiv_smul (μ := volume) (f := fun x => φ x b) (f' := D) hS
    (fun x _ => (hD x).hasFDerivWithinAt) (flow_injective hg hab hφ).injOn p
  rw [this]
  refine integral_congr_ae (Filter.Eventually.of_forall fun x => ?_)
  simp only [hdet, abs_of_pos (Real.exp_pos _), smul_eq_mul]

/-- Networks with a global Lipschitz constant (for example with bounded derivatives) have a flow, which is onto. -/
theorem exists_flow {g : (Fin d → ℝ) → (Fin d → ℝ)} (hg : ContDiff ℝ 1 g) (K : NNReal) (hK : LipschitzWith K g) {a b : ℝ}
    (hab : a ≤ b) : ∃ φ, IsFlow g a b φ ∧ Function.Surjective (fun x => φ x b) := by
  choose φ h0 h using exists_solution (F := fun _ => g) hab K (fun _ _ => hK) (fun _ => continuousOn_const)
  have hφ : IsFlow g a b φ := fun x => ⟨h0 x, h x⟩
  refine ⟨φ, hφ, fun y => ?_⟩
  obtain ⟨z, hz0, hz⟩ := exists_solution (F := fun _ y => -g y) (a := -b) (b := -a) (by linarith) K
    (fun _ _ => hK.neg) (fun _ => continuousOn_const) y
  have hrev : SolutionOn (fun _ => g) (fun t => z (-t)) a b := by
    intro t ht
    have h1 := hz (-t) ⟨by linarith [ht.2], by linarith [ht.1]⟩
    have h2 := HasDerivWithinAt.scomp (h := fun t : ℝ => -t) t h1 (hasDerivWithinAt_neg t (Icc a b))
      (fun s hs => ⟨by linarith [hs.2], by linarith [hs.1]⟩)
    simpa [Function.comp_def] using h2
  refine ⟨z (-a), ?_⟩
  have := solution_unique (g := fun _ => g) (cont_fderiv hg) (fun _ => hg.differentiable one_ne_zero) hrev
    (hφ (z (-a))).2 (by simp [(hφ (z (-a))).1]) b ⟨hab, le_rfl⟩
  simpa [hz0] using this

/-- Such networks also have solutions of the full CNF equation, with any initial value of column `0`. -/
theorem exists_cnf {g : (Fin d → ℝ) → (Fin d → ℝ)} (hg : ContDiff ℝ 1 g) (hd : 0 < d) {a b : ℝ} (hab : a ≤ b)
    {φ : (Fin d → ℝ) → ℝ → (Fin d → ℝ)} (hφ : IsFlow g a b φ) (x : Fin d → ℝ) :
    ∃ Z : ℝ → RowBatch Unit (d + 1), SolvesCnf g a b Z ∧ Z a () = Fin.cons 0 x := by
  have hc : ContinuousOn (fun t => -divergence g (φ x t)) (Icc a b) := by
    have e : (fun t => -divergence g (φ x t)) = fun t => -∑ i, fderiv ℝ g (φ x t) (Pi.single i 1) i := by
      funext t
      rw [divergence_eq_sum]
    rw [e]
    refine (continuousOn_finsetSum _ fun i _ => ?_).neg
    have h1 := ((hg.continuous_fderiv one_ne_zero).comp_continuousOn (hφ x).2.continuousOn).clm_apply
      (continuousOn_const (c := (Pi.single i 1 : Fin d → ℝ)))
    exact (continuous_apply i).comp_continuousOn h1
  obtain ⟨l, hl0, hl⟩ := exists_solution (ι := Unit) (F := fun t _ _ => -divergence g (φ x t)) hab 0
    (fun t _ => LipschitzWith.const _) (fun _ => continuousOn_pi.2 fun _ => hc) (fun _ => 0)
  refine ⟨fun t _ => Fin.cons (l t ()) (φ x t), fun t ht => ?_, ?_⟩
  · obtain ⟨out, h, ho⟩ := C61_forward (B := Unit) g (hg.differentiable one_ne_zero) hd 1 le_rfl none
      (fun _ => Fin.cons (l t ()) (φ x t))
    refine ⟨out, h, hasDerivWithinAt_pi.2 fun k => hasDerivWithinAt_pi.2 fun i => ?_⟩
    have hx : (fun i : Fin d => (Fin.cons (l t ()) (φ x t) : Fin (d + 1) → ℝ) i.succ) = φ x t := by
      funext i
      simp
    refine Fin.cases ?_ (fun i => ?_) i
    · rw [(ho k).1, hx]
      simpa using hasDerivWithinAt_pi.1 (hl t ht) ()
    · rw [(ho k).2 i, hx]
      simpa using hasDerivWithinAt_pi.1 ((hφ x).2 t ht) i
  · have : l a () = 0 := by rw [hl0]
    simp [this, (hφ x).1]

/-- **C97.** The model is normalised: for every continuously differentiable network with a Lipschitz constant there are a
flow `φ` and the final values `ℓ` of column `0`, and with any base density `p` the modelled likelihood
`p(φ x) exp(-ℓ x)` has the same integral as `p`. -/
theorem C97_normalised {g : (Fin d → ℝ) → (Fin d → ℝ)} (hg : ContDiff ℝ 1 g) (K : NNReal) (hK : LipschitzWith K g)
    (hd : 0 < d) {a b : ℝ} (hab : a ≤ b) :
    ∃ (φ : (Fin d → ℝ) → ℝ → (Fin d → ℝ)) (ℓ : (Fin d → ℝ) → ℝ), IsFlow g a b φ ∧
      (∀ x, ∃ Z : ℝ → RowBatch Unit (d + 1), SolvesCnf g a b Z ∧ Z a () = Fin.cons 0 x ∧ Z b () = Fin.cons (ℓ x) (φ x b)) ∧
      ∀ p : (Fin d → ℝ) → ℝ, ∫ x, Real.exp (-ℓ x) * p (φ x b) = ∫ y, p y := by
  obtain ⟨φ, hφ, hsurj⟩ := exists_flow hg K hK hab
  choose Z hZ hZa using exists_cnf hg hd hab hφ
  refine ⟨φ, fun x => Z x b () 0, hφ, fun x => ⟨Z x, hZ x, hZa x, ?_⟩, fun p => ?_⟩
  · have h := (C97_log_det hg hd hab hφ (hZ x) ()).1
    have e : (fun i : Fin d => Z x a () i.succ) = x := by
      rw [hZa]
      funext i
      simp
    rw [e] at h
    funext i
    refine Fin.cases rfl (fun i => ?_) i
    rw [h i]
    rfl
  · have := C97_density hg hd hab hφ (fun x => Z x b () 0) (fun x => ⟨Z x, hZ x, hZa x, rfl⟩) MeasurableSet.univ p
    rw [image_univ, hsurj.range_eq] at this
    simpa using this.symm

/-- Non-vacuity: the rotation field of the plane. -/
example : ∃ (φ : (Fin 2 → ℝ) → ℝ → (Fin 2 → ℝ)) (ℓ : (Fin 2 → ℝ) → ℝ),
    IsFlow (fun y => ![-y 1, y 0]) 0 1 φ ∧ ∀ p : (Fin 2 → ℝ) → ℝ, ∫ x, Real.exp (-ℓ x) * p (φ x 1) = ∫ y, p y := by
  have hg : ContDiff ℝ 1 (fun y : Fin 2 → ℝ => ![-y 1, y 0]) := by
    rw [contDiff_pi]
    intro i
    fin_cases i
    · exact (contDiff_apply ℝ ℝ 1).neg
    · exact contDiff_apply ℝ ℝ 0
  have hK : LipschitzWith 1 (fun y : Fin 2 → ℝ => ![-y 1, y 0]) := by
    refine LipschitzWith.of_dist_le_mul fun x y => ?_
    rw [NNReal.coe_one, one_mul, dist_pi_le_iff dist_nonneg]
    intro i
    fin_cases i
    · simpa [dist_neg_neg] using dist_le_pi_dist x y 1
    · simpa using dist_le_pi_dist x y 0
  obtain ⟨φ, ℓ, hφ, -, h⟩ := C97_normalised hg 1 hK (by norm_num) zero_le_one
  exact ⟨φ, ℓ, hφ, h⟩

end Torchdyn
