import Verif.Props.CnfDensity
import Verif.Props.LocalConvergence
import Mathlib.Analysis.SpecialFunctions.Sqrt
import Mathlib.Analysis.SpecialFunctions.Trigonometric.Bounds
import Mathlib.Analysis.SpecialFunctions.Trigonometric.Deriv

/-!
Property C105: the log-likelihoods computed by a CNF with a fixed-step solver converge with the order of the solver.
-/

set_option linter.unusedSectionVars false

namespace Torchdyn

open Set Spec

variable {B A : Type} [Fintype B] [DecidableEq B] {d : ℕ}

/-- A `CNF` module with exact trace for the network `g`, applied sample by sample. -/
noncomputable def exactCnf (B : Type) [Fintype B] [DecidableEq B] {d : ℕ} (g : (Fin d → ℝ) → (Fin d → ℝ)) : Cnf B d :=
  ⟨fun y k => g (y k), .autograd, 1, none⟩

/-- The value of the module. -/
noncomputable def cnfValue (g : (Fin d → ℝ) → (Fin d → ℝ)) (z : RowBatch B (d + 1)) : RowBatch B (d + 1) :=
  fun b => Fin.cons (-divergence g (dataCols z b)) (g (dataCols z b))

theorem cnf_forward_value {g : (Fin d → ℝ) → (Fin d → ℝ)} (hg : Differentiable ℝ g) (hd : 0 < d) (z : RowBatch B (d + 1)) :
    (exactCnf B g).forward z = .ok (cnfValue g z) := by
  obtain ⟨out, h, ho⟩ := C61_forward (B := B) g hg hd 1 le_rfl none z
  rw [exactCnf, h]
  congr 1
  funext b i
  refine Fin.cases ?_ (fun i => ?_) i
  · exact (ho b).1
  · exact (ho b).2 i

theorem contDiff_dataCols {n : ℕ∞} (b : B) : ContDiff ℝ n fun z : RowBatch B (d + 1) => dataCols z b := by
  rw [contDiff_pi]
  intro i
  exact (contDiff_apply ℝ ℝ (i.succ)).comp (contDiff_apply ℝ (Fin (d + 1) → ℝ) b)

theorem contDiff_divergence {g : (Fin d → ℝ) → (Fin d → ℝ)} {n : ℕ} (hg : ContDiff ℝ (n + 1 : ℕ) g) :
    ContDiff ℝ n (divergence g) := by
  have e : divergence g = fun y => ∑ i, fderiv ℝ g y (Pi.single i 1) i := by
    funext y
    rw [divergence_eq_sum]
  rw [e]
  refine ContDiff.sum fun i _ => ?_
  have h1 : ContDiff ℝ n (fderiv ℝ g) := hg.fderiv_right (by push_cast; rfl)
  exact (contDiff_apply ℝ ℝ i).comp (h1.clm_apply contDiff_const)

theorem contDiff_cnfValue {g : (Fin d → ℝ) → (Fin d → ℝ)} {n : ℕ} (hg : ContDiff ℝ (n + 1 : ℕ) g) :
    ContDiff ℝ n (cnfValue (B := B) g) := by
  rw [contDiff_pi]
  intro b
  rw [contDiff_pi]
  intro i
  have hx : ContDiff ℝ (n : ℕ∞) fun z : RowBatch B (d + 1) => dataCols z b := contDiff_dataCols b
  refine Fin.cases ?_ (fun i => ?_) i
  · exact ((contDiff_divergence hg).comp hx).neg
  · have hg' : ContDiff ℝ n g := hg.of_le (by exact_mod_cast Nat.le_succ n)
    exact (contDiff_apply ℝ ℝ i).comp (hg'.comp hx)

theorem dataCols_le (z z' : RowBatch B (d + 1)) (b : B) : ‖dataCols z b - dataCols z' b‖ ≤ ‖z - z'‖ := by
  refine (pi_norm_le_iff_of_nonneg (norm_nonneg _)).2 fun i => ?_
  exact (norm_le_pi_norm ((z - z') b) i.succ).trans (norm_le_pi_norm (z - z') b)

/-- The log-likelihoods along a fixed-step integration of a CNF have error `O(h ^ p)`: there are `C` and `δ` such that on
every increasing grid in `[a, T]` from `a` with spacings at most `h ≤ δ`, started from a batch `z₀`, stepping with the solver
(which is what `odeint` returns on every grid it accepts) gives states whose data columns are within `C h ^ p` of the flow `φ` of the network, and whose column `0` is within
`C h ^ p` of its initial value minus the logarithm of the Jacobian determinant of the flow, for every sample and at every
point of the grid. -/
def LogLikelihoodOrder (p : ℕ) (solver : Solver (Except PyErr) ℝ (RowBatch B (d + 1)) A) (args : A)
    (g : (Fin d → ℝ) → (Fin d → ℝ)) (φ : (Fin d → ℝ) → ℝ → (Fin d → ℝ)) (z₀ : RowBatch B (d + 1)) (a T : ℝ) : Prop :=
  ∃ C δ, 0 < δ ∧ ∀ (t1 : ℝ) (rest : List ℝ) (h : ℝ), h ≤ δ → (a :: t1 :: rest).Pairwise (· < ·) →
    (∀ t ∈ a :: t1 :: rest, t ≤ T) →
    (∀ (k : ℕ) (t t' : ℝ), (a :: t1 :: rest)[k]? = some t → (a :: t1 :: rest)[k + 1]? = some t' → t' - t ≤ h) →
    ∃ (ψ : RowBatch B (d + 1) → ℝ → ℝ → RowBatch B (d + 1)) (sol : List (RowBatch B (d + 1))),
      (∀ z t dt, ∃ k e, solver.step (fun _ z => (exactCnf B g).forward z) z t dt none args = .ok (.three k (ψ z t dt) e)) ∧
      IsTrajectory ψ z₀ (a :: t1 :: rest) sol ∧
      (Separated (a :: t1 :: rest) →
        odeintFixed (fun _ z => (exactCnf B g).forward z) z₀ (a :: t1 :: rest) solver [] args = .ok (a :: t1 :: rest, sol)) ∧
      ∀ (k : ℕ) (t : ℝ) (z : RowBatch B (d + 1)), (a :: t1 :: rest)[k]? = some t → sol[k]? = some z → ∀ b,
        ‖dataCols z b - φ (dataCols z₀ b) t‖ ≤ C * h ^ p ∧
        ∃ D : (Fin d → ℝ) →L[ℝ] (Fin d → ℝ), HasFDerivAt (fun x => φ x t) D (dataCols z₀ b) ∧ 0 < D.det ∧
          |z b 0 - (z₀ b 0 - Real.log D.det)| ≤ C * h ^ p

theorem exists_cnf_batch {g : (Fin d → ℝ) → (Fin d → ℝ)} (hg : ContDiff ℝ 1 g) (hd : 0 < d) {a T : ℝ} (haT : a ≤ T)
    {φ : (Fin d → ℝ) → ℝ → (Fin d → ℝ)} (hφ : IsFlow g a T φ) (z₀ : RowBatch B (d + 1)) :
    ∃ Z : ℝ → RowBatch B (d + 1), Z a = z₀ ∧ SolvesCnf g a T Z ∧
      ∀ t ∈ Icc a T, HasDerivWithinAt Z (cnfValue g (Z t)) (Icc a T) t := by
  choose Z hZ hZa using fun b => exists_cnf hg hd haT hφ (dataCols z₀ b)
  have hgd := hg.differentiable one_ne_zero
  have hder : ∀ t ∈ Icc a T, HasDerivWithinAt (fun t b i => Z b t () i + Fin.cases (z₀ b 0) (fun _ => 0) i)
      (cnfValue (B := B) g (fun b i => Z b t () i + Fin.cases (z₀ b 0) (fun _ => 0) i)) (Icc a T) t := by
    intro t ht
    rw [hasDerivWithinAt_pi]
    intro b
    obtain ⟨out, ho, h⟩ := hZ b t ht
    have e : out = cnfValue g (Z b t) := by
      have := cnf_forward_value hgd hd (Z b t)
      exact Except.ok.inj (ho.symm.trans this)
    rw [hasDerivWithinAt_pi] at h
    have hb := h ()
    rw [hasDerivWithinAt_pi] at hb ⊢
    intro i
    have e2 : out () i = cnfValue (B := B) g (fun b i => Z b t () i + Fin.cases (z₀ b 0) (fun _ => 0) i) b i := by
      rw [e]
      have : dataCols (fun (b : B) (i : Fin (d + 1)) => Z b t () i + (Fin.cases (z₀ b 0) (fun _ => 0) i : ℝ)) b =
          dataCols (Z b t) () := by
        funext j
        simp [dataCols]
      simp only [cnfValue, this]
    rw [← e2]
    exact (hb i).add_const _
  refine ⟨fun t b i => Z b t () i + Fin.cases (z₀ b 0) (fun _ => 0) i, ?_, fun t ht => ?_, hder⟩
  · funext b i
    simp only [hZa]
    refine Fin.cases ?_ (fun i => ?_) i
    · simp
    · simp [dataCols]
  · exact ⟨_, cnf_forward_value hgd hd _, hder t ht⟩

theorem logLikelihood_of_converges {p : ℕ} {solver : Solver (Except PyErr) ℝ (RowBatch B (d + 1)) A} {args : A}
    {g : (Fin d → ℝ) → (Fin d → ℝ)} (hg : ContDiff ℝ 1 g) (hd : 0 < d) {a T : ℝ} (haT : a ≤ T)
    {φ : (Fin d → ℝ) → ℝ → (Fin d → ℝ)} (hφ : IsFlow g a T φ) (z₀ : RowBatch B (d + 1))
    (hconv : ∀ Z : ℝ → RowBatch B (d + 1), (∀ t ∈ Icc a T, HasDerivWithinAt Z (cnfValue g (Z t)) (Icc a T) t) →
      ConvergesWithOrder p solver args (fun _ z => cnfValue g z) Z a T) :
    LogLikelihoodOrder p solver args g φ z₀ a T := by
  obtain ⟨Z, hZ0, hZ, hder⟩ := exists_cnf_batch hg hd haT hφ z₀
  obtain ⟨C, δ, hδ, H⟩ := hconv Z hder
  refine ⟨C, δ, hδ, fun t1 rest h hh hmono hT hgap => ?_⟩
  obtain ⟨ψ, sol, hs, htraj, hrun, hbound⟩ := H t1 rest h hh hmono hT hgap
  have ef : (fun (_ : ℝ) (z : RowBatch B (d + 1)) => (exactCnf B g).forward z) = pureField (fun _ z => cnfValue g z) := by
    funext t z
    exact cnf_forward_value (hg.differentiable one_ne_zero) hd z
  refine ⟨ψ, sol, by rw [ef]; exact hs, by rw [← hZ0]; exact htraj, fun hsep => ?_, fun k t z hk hz b => ?_⟩
  · rw [ef, ← hZ0]
    exact hrun hsep
  have ht : t ∈ a :: t1 :: rest := List.mem_of_getElem? hk
  have hta : a ≤ t := by
    rcases List.mem_cons.1 ht with rfl | h
    · exact le_rfl
    · exact ((List.pairwise_cons.1 hmono).1 t h).le
  have hle := hbound k t z hk hz
  have hsub : Icc a t ⊆ Icc a T := Icc_subset_Icc le_rfl (hT t ht)
  have hφt : IsFlow g a t φ := fun x => ⟨(hφ x).1, fun s hs => ((hφ x).2 s (hsub hs)).mono hsub⟩
  have hZt : SolvesCnf g a t Z := fun s hs => by
    obtain ⟨out, ho, h⟩ := hZ s (hsub hs)
    exact ⟨out, ho, h.mono hsub⟩
  obtain ⟨hdata, D, hD, hdet⟩ := C97_log_det hg hd hta hφt hZt b
  rw [hZ0] at hdata hD hdet
  have hφz : φ (dataCols z₀ b) t = dataCols (Z t) b := by
    funext i
    exact (hdata i).symm
  refine ⟨?_, D, hD, ?_, ?_⟩
  · rw [hφz]
    exact (dataCols_le z (Z t) b).trans hle
  · rw [hdet]
    exact Real.exp_pos _
  · rw [hdet, Real.log_exp]
    have e : z b 0 - (z₀ b 0 - (z₀ b 0 - Z t b 0)) = (z - Z t) b 0 := by
      simp
    rw [e, ← Real.norm_eq_abs]
    exact ((norm_le_pi_norm ((z - Z t) b) 0).trans (norm_le_pi_norm (z - Z t) b)).trans hle

/-- **C105.** Log-likelihoods computed by a CNF (exact trace) and a fixed-step solver converge to the exact ones with the
order of the solver: one for `euler`, two for `midpoint`, four for `rk4` (the field of a CNF is autonomous), for every
smooth network with a flow; neither the network nor its divergence need be Lipschitz. -/
theorem C105_log_likelihood {g : (Fin d → ℝ) → (Fin d → ℝ)} (hd : 0 < d) {a T : ℝ} (haT : a ≤ T)
    {φ : (Fin d → ℝ) → ℝ → (Fin d → ℝ)} (hφ : IsFlow g a T φ) (z₀ : RowBatch B (d + 1)) (args : A) :
    (ContDiff ℝ 2 g → LogLikelihoodOrder 1 (eulerSolver (Except PyErr) ℝ (RowBatch B (d + 1)) A) args g φ z₀ a T) ∧
    (ContDiff ℝ 3 g → LogLikelihoodOrder 2 (midpointSolver (Except PyErr) ℝ (RowBatch B (d + 1)) A) args g φ z₀ a T) ∧
    (ContDiff ℝ 5 g → LogLikelihoodOrder 4 (rk4Solver (Except PyErr) ℝ (RowBatch B (d + 1)) A) args g φ z₀ a T) := by
  refine ⟨fun hg => ?_, fun hg => ?_, fun hg => ?_⟩
  · refine logLikelihood_of_converges (hg.of_le (by norm_num)) hd haT hφ z₀ fun Z hZ => ?_
    have h1 : ContDiff ℝ 1 (cnfValue (B := B) g) := contDiff_cnfValue (n := 1) hg
    exact (C106_euler (fun _ z => cnfValue g z) (h1.comp contDiff_snd) Z a T hZ args).converges
  · refine logLikelihood_of_converges (hg.of_le (by norm_num)) hd haT hφ z₀ fun Z hZ => ?_
    have h1 : ContDiff ℝ 2 (cnfValue (B := B) g) := contDiff_cnfValue (n := 2) hg
    exact (C106_midpoint (fun _ z => cnfValue g z) (h1.comp contDiff_snd) Z a T hZ args).converges
  · refine logLikelihood_of_converges (hg.of_le (by norm_num)) hd haT hφ z₀ fun Z hZ => ?_
    have h1 : ContDiff ℝ 4 (cnfValue (B := B) g) := contDiff_cnfValue (n := 4) hg
    exact (C106_rk4_partial (cnfValue g) h1 Z a T hZ args).converges

/-- Non-vacuity: the network `y ↦ -y³` (componentwise), which is not Lipschitz and whose divergence is not; its flow is
`x / √(1 + 2 x² t)`. `rk4` computes its log-likelihoods with fourth order on every batch. -/
example (T : ℝ) (hT : 0 ≤ T) (z₀ : RowBatch B 3) :
    LogLikelihoodOrder 4 (rk4Solver (Except PyErr) ℝ (RowBatch B 3) Unit) () (fun (y : Fin 2 → ℝ) i => -y i ^ 3)
      (fun x t i => x i / Real.sqrt (1 + 2 * x i ^ 2 * t)) z₀ 0 T := by
  have hg : ContDiff ℝ 5 (fun (y : Fin 2 → ℝ) i => -y i ^ 3) :=
    contDiff_pi.2 fun i => ((contDiff_apply ℝ ℝ i).pow 3).neg
  refine (C105_log_likelihood (by norm_num) hT (fun x => ⟨?_, fun t ht => ?_⟩) z₀ ()).2.2 hg
  · funext i
    simp
  · refine hasDerivWithinAt_pi.2 fun i => HasDerivAt.hasDerivWithinAt ?_
    have hpos : 0 < 1 + 2 * x i ^ 2 * t := by have := ht.1; positivity
    have h1 : HasDerivAt (fun t => 1 + 2 * x i ^ 2 * t) (2 * x i ^ 2) t := by
      simpa using ((hasDerivAt_id t).const_mul (2 * x i ^ 2)).const_add 1
    have h2 := (h1.sqrt hpos.ne').fun_inv (Real.sqrt_ne_zero'.2 hpos)
    have h3 := h2.const_mul (x i)
    simp only [← div_eq_mul_inv] at h3
    refine h3.congr_deriv ?_
    have hs : Real.sqrt (1 + 2 * x i ^ 2 * t) ≠ 0 := Real.sqrt_ne_zero'.2 hpos
    simp only
    field_simp

/-- Non-vacuity: the network `y ↦ sin y` (componentwise) in the plane, whose divergence is not constant; `rk4` computes
its log-likelihoods with fourth order on every batch. -/
example (z₀ : RowBatch B 3) : ∃ φ, IsFlow (fun (y : Fin 2 → ℝ) i => Real.sin (y i)) 0 1 φ ∧
    LogLikelihoodOrder 4 (rk4Solver (Except PyErr) ℝ (RowBatch B 3) Unit) () (fun (y : Fin 2 → ℝ) i => Real.sin (y i)) φ
      z₀ 0 1 := by
  have hgn : ∀ n : ℕ, ContDiff ℝ n (fun (y : Fin 2 → ℝ) i => Real.sin (y i)) := fun n =>
    contDiff_pi.2 fun i => Real.contDiff_sin.comp (contDiff_apply ℝ ℝ i)
  have hLip : ∀ x x' : Fin 2 → ℝ, ‖(fun i => Real.sin (x i)) - (fun i => Real.sin (x' i))‖ ≤ 1 * ‖x - x'‖ := by
    intro x x'
    rw [one_mul]
    refine (pi_norm_le_iff_of_nonneg (norm_nonneg _)).2 fun i => ?_
    exact (Real.abs_sin_sub_sin_le _ _).trans (norm_le_pi_norm (x - x') i)
  obtain ⟨φ, hφ, -⟩ := exists_flow (hgn 1) 1 (LipschitzWith.of_dist_le_mul fun x x' => by
    rw [dist_eq_norm, dist_eq_norm]
    exact hLip x x') (a := 0) (b := 1) zero_le_one
  exact ⟨φ, hφ, (C105_log_likelihood (by norm_num) zero_le_one hφ z₀ ()).2.2 (hgn 5)⟩

end Torchdyn
