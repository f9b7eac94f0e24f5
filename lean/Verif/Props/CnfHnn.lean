import Verif.Props.EnergyDrift
import Verif.Props.Cnf
import Verif.Props.Symmetry
import Verif.Props.CnfNumerics
import Mathlib.Analysis.Calculus.FDeriv.Symmetric

/-!
# C147: a continuous normalizing flow over a Hamiltonian network preserves volume

`CNF(HNN(H))`: the divergence of a Hamiltonian field is zero by the symmetry of second derivatives, so the first column
(the accumulated log-density) is never changed, by no solver, no grid and no tolerance. With the Hutchinson estimator this
holds only in the mean.
-/

namespace Torchdyn

open Spec

section hnn

variable {B A : Type} [Fintype B] [DecidableEq B] {d : Nat}

/-- The Hamiltonian field of one sample, as energy.py:80 cuts it. -/
noncomputable def sampleHnn (H : (Fin d → ℝ) → ℝ) (z : Fin d → ℝ) (i : Fin d) : ℝ :=
  hnnForward (B := Unit) (fun y (k : Unit) => H (y k)) (fun _ => z) () i

theorem hnn_grad (H : (Fin d → ℝ) → ℝ) (hH : Differentiable ℝ H) (x : RowBatch B d) (b : B) (i : Fin d) :
    autogradGrad (outputSum fun (y : RowBatch B d) (k : B) => H (y k)) x b i = fderiv ℝ H (x b) (Pi.single i 1) :=
  autogradGrad_perSample H hH x b i

/-- A Hamiltonian network that treats the samples one by one gives a field that treats them one by one. -/
theorem hnn_samplewise (H : (Fin d → ℝ) → ℝ) (hH : Differentiable ℝ H) :
    hnnForward (fun (y : RowBatch B d) (k : B) => H (y k)) = fun y k => sampleHnn H (y k) := by
  funext y k i
  unfold sampleHnn
  simp only [hnnForward, hnn_grad H hH]

theorem sampleHnn_left {n : ℕ} (H : (Fin (n + n) → ℝ) → ℝ) (hH : Differentiable ℝ H) (z : Fin (n + n) → ℝ) (i : Fin n) :
    sampleHnn H z (Fin.castAdd n i) = fderiv ℝ H z (Pi.single (Fin.natAdd n i) 1) := by
  have hn : (n + n) / 2 = n := by omega
  unfold sampleHnn
  simp only [hnnForward, hn]
  rw [dif_pos (by simp), hnn_grad H hH]
  congr 2
  ext
  simp [add_comm]

theorem sampleHnn_right {n : ℕ} (H : (Fin (n + n) → ℝ) → ℝ) (hH : Differentiable ℝ H) (z : Fin (n + n) → ℝ) (i : Fin n) :
    sampleHnn H z (Fin.natAdd n i) = -fderiv ℝ H z (Pi.single (Fin.castAdd n i) 1) := by
  have hn : (n + n) / 2 = n := by omega
  unfold sampleHnn
  simp only [hnnForward, hn]
  rw [dif_neg (by simp), hnn_grad H hH]
  congr 3
  ext
  simp

theorem fderiv_contDiff_one {H : (Fin d → ℝ) → ℝ} (hH : ContDiff ℝ 2 H) (v : Fin d → ℝ) :
    ContDiff ℝ 1 fun z => fderiv ℝ H z v :=
  (hH.fderiv_right (m := 1) (by norm_num)).clm_apply contDiff_const

theorem second_symm {H : (Fin d → ℝ) → ℝ} (hH : ContDiff ℝ 2 H) (z v w : Fin d → ℝ) :
    fderiv ℝ (fun z => fderiv ℝ H z v) z w = fderiv ℝ (fun z => fderiv ℝ H z w) z v := by
  have hd : DifferentiableAt ℝ (fderiv ℝ H) z := (hH.fderiv_right (m := 1) (by norm_num)).differentiable (by norm_num) z
  have key : ∀ v w, fderiv ℝ (fun z => fderiv ℝ H z v) z w = fderiv ℝ (fderiv ℝ H) z w v := by
    intro v w
    have := hd.hasFDerivAt.clm_apply (hasFDerivAt_const v z)
    rw [this.fderiv]
    simp
  rw [key, key]
  exact (hH.contDiffAt.isSymmSndFDerivAt (by simp)).eq w v

theorem sampleHnn_differentiable (H : (Fin d → ℝ) → ℝ) (hd : Even d) (hH : ContDiff ℝ 2 H) :
    Differentiable ℝ (sampleHnn H) := by
  obtain ⟨n, rfl⟩ := hd
  have h1 : Differentiable ℝ H := hH.differentiable (by norm_num)
  refine differentiable_pi.2 (fun i => ?_)
  refine Fin.addCases (fun i => ?_) (fun i => ?_) i
  · simp only [sampleHnn_left H h1]
    exact (fderiv_contDiff_one hH _).differentiable (by norm_num)
  · simp only [sampleHnn_right H h1]
    exact ((fderiv_contDiff_one hH _).differentiable (by norm_num)).neg

/-- **C147**, first part (Liouville): the field of a Hamiltonian network with a twice continuously differentiable energy and
an even number of columns has divergence zero everywhere. -/
theorem C147_divergence (H : (Fin d → ℝ) → ℝ) (hd : Even d) (hH : ContDiff ℝ 2 H) (z : Fin d → ℝ) :
    divergence (sampleHnn H) z = 0 := by
  have hdiff := sampleHnn_differentiable H hd hH
  obtain ⟨n, rfl⟩ := hd
  have h1 : Differentiable ℝ H := hH.differentiable (by norm_num)
  rw [divergence_eq_sum]
  have hc : ∀ i, fderiv ℝ (sampleHnn H) z (Pi.single i 1) i = fderiv ℝ (fun z => sampleHnn H z i) z (Pi.single i 1) := by
    intro i
    have := hasFDerivAt_pi'.1 (hdiff z).hasFDerivAt i
    rw [this.fderiv]
    rfl
  simp only [hc]
  rw [Fin.sum_univ_add]
  simp only [sampleHnn_left H h1, sampleHnn_right H h1]
  rw [← Finset.sum_add_distrib]
  refine Finset.sum_eq_zero (fun i _ => ?_)
  rw [fderiv_fun_neg, neg_apply, second_symm hH z (Pi.single (Fin.castAdd n i) 1)]
  ring

/-- **C147**, one evaluation: `CNF(HNN(H))` with the default estimator returns zero in column `0` and the Hamiltonian field
in the others. -/
theorem C147_forward (H : (Fin d → ℝ) → ℝ) (hd : Even d) (hd0 : 0 < d) (hH : ContDiff ℝ 2 H) (order : Nat) (ho : order ≤ 1)
    (noise : Option (RowBatch B d)) (x : RowBatch B (d + 1)) :
    ∃ out, (Cnf.mk (hnnForward fun y k => H (y k)) .autograd order noise).forward x = .ok out ∧
      ∀ b, out b 0 = 0 ∧ ∀ i : Fin d, out b i.succ = hnnForward (fun y k => H (y k)) (dataCols x) b i := by
  have h1 : Differentiable ℝ H := hH.differentiable (by norm_num)
  rw [hnn_samplewise H h1]
  obtain ⟨out, h, h'⟩ := C61_forward (sampleHnn H) (sampleHnn_differentiable H hd hH) hd0 order ho noise x
  refine ⟨out, h, fun b => ⟨?_, fun i => (h' b).2 i⟩⟩
  rw [(h' b).1, C147_divergence H hd hH, neg_zero]

theorem cnfHnn_field (H : (Fin d → ℝ) → ℝ) (hd : Even d) (hd0 : 0 < d) (hH : ContDiff ℝ 2 H) :
    ∃ F : RowBatch B (d + 1) → RowBatch B (d + 1),
      (fun (_ : ℝ) x => (Cnf.mk (hnnForward fun y (k : B) => H (y k)) .autograd 1 none).forward x) = pureField (fun _ => F) ∧
      ∀ x b, F x b 0 = 0 ∧ ∀ i : Fin d, F x b i.succ = hnnForward (fun y k => H (y k)) (dataCols x) b i := by
  choose F hF h using C147_forward (B := B) H hd hd0 hH 1 le_rfl none
  exact ⟨F, funext fun _ => funext fun x => hF x, h⟩

/-- The first column as a linear function of the batch. -/
def firstColumn (B : Type) (d : ℕ) : RowBatch B (d + 1) →ₗ[ℝ] (B → ℝ) where
  toFun x b := x b 0
  map_add' _ _ := rfl
  map_smul' _ _ := rfl

/-- The data columns as a linear function of the batch. -/
def dataColumns (B : Type) (d : ℕ) : RowBatch B (d + 1) →ₗ[ℝ] RowBatch B d where
  toFun := dataCols
  map_add' _ _ := rfl
  map_smul' _ _ := rfl

/-- **C147**, fixed-step solvers: whatever `t_span` and `save_at`, every state that `odeint` returns for `CNF(HNN(H))` has the
initial first column, exactly; and its other columns are what `odeint` returns for `HNN(H)` alone. -/
theorem C147_fixed (H : (Fin d → ℝ) → ℝ) (hd : Even d) (hd0 : 0 < d) (hH : ContDiff ℝ 2 H) (M : RkMethod)
    (x : RowBatch B (d + 1)) (tSpan saveAt : List ℝ) (args : A) :
    (∀ ts xs, odeintFixed (fun _ x => (Cnf.mk (hnnForward fun y (k : B) => H (y k)) .autograd 1 none).forward x) x tSpan
      (M.solver (RowBatch B (d + 1)) A) saveAt args = .ok (ts, xs) → ∀ y ∈ xs, ∀ b, y b 0 = x b 0) ∧
    (odeintFixed (fun _ x => (Cnf.mk (hnnForward fun y (k : B) => H (y k)) .autograd 1 none).forward x) x tSpan
      (M.solver (RowBatch B (d + 1)) A) saveAt args).map (fun r => (r.1, r.2.map dataCols)) =
      odeintFixed (pureField fun _ => hnnForward fun y (k : B) => H (y k)) (dataCols x) tSpan
        (M.solver (RowBatch B d) A) saveAt args := by
  obtain ⟨F, hF, h⟩ := cnfHnn_field (B := B) H hd hd0 hH
  rw [hF]
  constructor
  · intro ts xs hr y hy b
    have := C93_fixed (firstColumn B d) (fun _ => F) (fun _ x => funext fun b => (h x b).1) x tSpan saveAt args
      (M.solver (RowBatch B (d + 1)) A) (by cases M <;> simp [RkMethod.solver]) ts xs hr y hy
    exact congrFun this b
  · obtain ⟨h1, h2, h3⟩ := C19_equivariant (dataColumns B d) (fun _ => F) (fun _ : ℝ => hnnForward fun y (k : B) => H (y k))
      (fun _ x => funext fun b => funext fun i => (h x b).2 i) args x tSpan saveAt
    cases M
    · exact h1
    · exact h2
    · exact h3

/-- **C147**, adaptive solvers: dopri5 and tsit5, at every tolerance, with and without interpolation, return states whose
first column is the initial one, exactly. The batch is flattened, as the error norm of `odeint` sees it. -/
theorem C147_adaptive (H : (Fin d → ℝ) → ℝ) (hd : Even d) (hd0 : 0 < d) (hH : ContDiff ℝ 2 H) (tsit : Bool)
    (x : B × Fin (d + 1) → ℝ) (tSpan : List ℝ) (atol rtol : ℝ) (ui rae : Bool) (saveAt : List ℝ) (args : A)
    (sel : Finset (B × Fin (d + 1))) (fuel : ℕ) (ts : List ℝ) (xs : List (B × Fin (d + 1) → ℝ))
    (hr : odeint fuel (fun _ x => (fun out p => out p.1 p.2) <$>
        (Cnf.mk (hnnForward fun y (k : B) => H (y k)) .autograd 1 none).forward (fun b i => x (b, i))) x tSpan
      (libSolver tsit (B × Fin (d + 1)) A) atol rtol ui rae saveAt args sel = .ok (some (ts, xs))) :
    ∀ y ∈ xs, ∀ b, y (b, 0) = x (b, 0) := by
  obtain ⟨F, hF, h⟩ := cnfHnn_field (B := B) H hd hd0 hH
  have e : (fun (_ : ℝ) (x : B × Fin (d + 1) → ℝ) => (fun (out : RowBatch B (d + 1)) (p : B × Fin (d + 1)) => out p.1 p.2) <$>
      (Cnf.mk (hnnForward fun y (k : B) => H (y k)) .autograd 1 none).forward (fun b i => x (b, i))) =
      pureField (fun _ x p => F (fun b i => x (b, i)) p.1 p.2) := by
    funext t x
    have := congrFun (congrFun hF t) (fun b i => x (b, i))
    change _ <$> _ = _
    rw [this]
    rfl
  rw [e] at hr
  intro y hy b
  exact C93_adaptive tsit (LinearMap.proj (R := ℝ) (φ := fun _ : B × Fin (d + 1) => ℝ) (b, 0)) _
    (fun t x => (h _ b).1) x tSpan atol rtol ui rae saveAt args sel fuel ts xs hr y hy

/-- **C147**, Hutchinson estimator, in the mean: for noise with identity second moments the estimate of the divergence of a
Hamiltonian network has mean zero. -/
theorem C147_hutch_mean_partial {Ω : Type} [MeasurableSpace Ω] (μ : MeasureTheory.Measure Ω) (noise : Ω → RowBatch B d)
    (hint : ∀ b i j, MeasureTheory.Integrable (fun ω => noise ω b i * noise ω b j) μ)
    (hcov : ∀ b i j, ∫ ω, noise ω b i * noise ω b j ∂μ = if i = j then 1 else 0)
    (H : (Fin d → ℝ) → ℝ) (hd : Even d) (hH : ContDiff ℝ 2 H) (x : RowBatch B d) (b : B) :
    ∫ ω, hutchTrace (hnnForward fun y (k : B) => H (y k)) (noise ω) x b ∂μ = 0 := by
  rw [hnn_samplewise H (hH.differentiable (by norm_num))]
  rw [C62_unbiased μ noise hint hcov (sampleHnn H) (sampleHnn_differentiable H hd hH)]
  exact C147_divergence H hd hH _

/-- The saddle `H(q, p) = q p`. -/
def saddle (z : Fin 2 → ℝ) : ℝ := z 0 * z 1

theorem saddle_contDiff : ContDiff ℝ 2 saddle := by
  unfold saddle
  fun_prop

theorem sampleHnn_saddle (z : Fin 2 → ℝ) : sampleHnn saddle z = ![z 0, -z 1] := by
  have h1 : Differentiable ℝ saddle := saddle_contDiff.differentiable (by norm_num)
  have hf : HasFDerivAt saddle (z 0 • ContinuousLinearMap.proj (R := ℝ) (φ := fun _ : Fin 2 => ℝ) 1 +
      z 1 • ContinuousLinearMap.proj (R := ℝ) (φ := fun _ : Fin 2 => ℝ) 0) z :=
    (ContinuousLinearMap.proj (R := ℝ) (φ := fun _ : Fin 2 => ℝ) 0).hasFDerivAt.mul
      (ContinuousLinearMap.proj (R := ℝ) (φ := fun _ : Fin 2 => ℝ) 1).hasFDerivAt
  funext i
  fin_cases i
  · have := sampleHnn_left (n := 1) saddle h1 z 0
    refine this.trans ?_
    rw [hf.fderiv]
    simp [Fin.natAdd]
  · have := sampleHnn_right (n := 1) saddle h1 z 0
    refine this.trans ?_
    rw [hf.fderiv]
    simp [Fin.castAdd]

/-- **C147 is false** for the Hutchinson estimator: on the saddle `H = q p` with the noise `(2, 1)` (Gaussian noise has this
value in its range; signs would not do), every evaluation puts `-3` into column `0`, so one Euler step over `[0, 1]` changes
the log-density by `-3` although the flow preserves volume. -/
theorem C147_hutch_refuted (x : RowBatch Unit 3) (args : A) :
    ∃ sol y, odeintFixed (fun _ x => (Cnf.mk (hnnForward fun y (k : Unit) => saddle (y k)) .hutch 1
        (some fun _ => ![2, 1])).forward x) x [0, 1] (eulerSolver (Except PyErr) ℝ (RowBatch Unit 3) A) [] args =
        .ok ([0, 1], sol) ∧ sol[1]? = some y ∧ y () 0 = x () 0 - 3 := by
  have h1 : Differentiable ℝ saddle := saddle_contDiff.differentiable (by norm_num)
  have htr : ∀ z : RowBatch Unit 2, hutchTrace (hnnForward fun y (k : Unit) => saddle (y k)) (fun _ => ![2, 1]) z () = 3 := by
    intro z
    have hs : sampleHnn saddle = fun z => ![z 0, -z 1] := funext sampleHnn_saddle
    have hd := sampleHnn_differentiable saddle (by decide) saddle_contDiff
    rw [hnn_samplewise saddle h1, C62_quadratic_form _ hd, hs]
    have hf : HasFDerivAt (fun z : Fin 2 → ℝ => (![z 0, -z 1] : Fin 2 → ℝ))
        (ContinuousLinearMap.pi ![ContinuousLinearMap.proj (R := ℝ) (φ := fun _ : Fin 2 => ℝ) 0,
          -ContinuousLinearMap.proj (R := ℝ) (φ := fun _ : Fin 2 => ℝ) 1]) (z ()) := by
      refine hasFDerivAt_pi.2 (fun i => ?_)
      fin_cases i
      · exact (ContinuousLinearMap.proj (R := ℝ) (φ := fun _ : Fin 2 => ℝ) 0).hasFDerivAt
      · exact (-ContinuousLinearMap.proj (R := ℝ) (φ := fun _ : Fin 2 => ℝ) 1).hasFDerivAt
    rw [hf.fderiv]
    simp [Fin.sum_univ_two]
    norm_num
  set F : RowBatch Unit 3 → RowBatch Unit 3 := fun x b => Fin.cons (-3) (hnnForward (fun y (k : Unit) => saddle (y k)) (dataCols x) b)
    with hF
  have hfield : (fun (_ : ℝ) x => (Cnf.mk (hnnForward fun y (k : Unit) => saddle (y k)) .hutch 1
      (some fun _ => ![2, 1])).forward x) = pureField (fun _ => F) := by
    funext t x
    simp only [Cnf.forward]
    rw [if_neg (by norm_num)]
    change Except.ok _ = Except.ok _
    congr 1
    funext b
    cases b
    rw [hF]
    simp only [htr]
  rw [hfield]
  have hsep : Separated [(0 : ℝ), 1] := by norm_num [Separated, Close, List.pairwise_cons, abs_of_pos, abs_of_neg]
  obtain ⟨sol, hrun, ht⟩ := C12_trajectory (euler_steppedBy (fun _ : ℝ => F) args) x 0 1 [] (by norm_num) hsep
  refine ⟨sol, x + ((1 : ℝ) - 0) • F x, hrun, ht.next 0 0 1 x rfl rfl ht.start, ?_⟩
  simp [hF]
  ring

/-- **C147 is false** for an odd number of columns, which `HNN` accepts without complaint: with one column it is the gradient
field of `H`; for `H = z² / 2` the CNF accumulates `-1`. -/
theorem C147_odd_refuted (x : RowBatch Unit 2) :
    ∃ out, (Cnf.mk (hnnForward fun y (k : Unit) => (fun z : Fin 1 → ℝ => z 0 ^ 2 / 2) (y k)) .autograd 1 none).forward x =
      .ok out ∧ out () 0 = -1 := by
  have h1 : Differentiable ℝ (fun z : Fin 1 → ℝ => z 0 ^ 2 / 2) := by fun_prop
  have hs : sampleHnn (fun z : Fin 1 → ℝ => z 0 ^ 2 / 2) = fun z => z := by
    funext z i
    fin_cases i
    unfold sampleHnn
    simp only [hnnForward, hnn_grad _ h1]
    rw [dif_pos (by norm_num)]
    have hf : HasFDerivAt (fun z : Fin 1 → ℝ => z 0 ^ 2 / 2)
        (z 0 • ContinuousLinearMap.proj (R := ℝ) (φ := fun _ : Fin 1 => ℝ) 0) z := by
      have h := ((ContinuousLinearMap.proj (R := ℝ) (φ := fun _ : Fin 1 => ℝ) 0).hasFDerivAt (x := z)).pow 2
      have h2 := h.const_mul (1 / 2 : ℝ)
      refine (h2.congr_fderiv ?_).congr_of_eventuallyEq (Filter.Eventually.of_forall fun w => ?_)
      · ext v
        simp
        ring
      · simp
        ring
    rw [hf.fderiv]
    simp
  rw [hnn_samplewise _ h1, hs]
  obtain ⟨out, h, h'⟩ := C61_forward (B := Unit) (d := 1) (fun z => z) differentiable_id (by norm_num) 1 le_rfl none x
  refine ⟨out, h, ?_⟩
  rw [(h' ()).1, divergence_eq_sum]
  simp

/-- The hypotheses of the theorems are met by the saddle, whose field is not zero and has entries with non-zero derivatives:
the two diagonal entries of the Jacobian, `1` and `-1`, cancel. -/
example (M : RkMethod) (x : RowBatch Unit 3) (args : Unit) :
    ∃ ts xs, odeintFixed (fun _ x => (Cnf.mk (hnnForward fun y (k : Unit) => saddle (y k)) .autograd 1 none).forward x) x [0, 1, 3]
      (M.solver (RowBatch Unit 3) Unit) [] args = .ok (ts, xs) ∧ xs.length = 3 ∧ ∀ y ∈ xs, y () 0 = x () 0 := by
  have h := C147_fixed (B := Unit) saddle (by decide) (by norm_num) saddle_contDiff M x [0, 1, 3] [] args
  obtain ⟨F, hF, -⟩ := cnfHnn_field (B := Unit) saddle (by decide) (by norm_num) saddle_contDiff
  have hsep : Separated [(0 : ℝ), 1, 3] := by norm_num [Separated, Close, List.pairwise_cons, abs_of_pos, abs_of_neg]
  obtain ⟨φ, hφ⟩ := method_steppedBy M (fun _ : ℝ => F) args
  obtain ⟨sol, hrun, ht⟩ := C12_trajectory hφ x 0 1 [3] (by norm_num) hsep
  rw [← hF] at hrun
  exact ⟨_, sol, hrun, ht.length_eq, fun y hy => h.1 _ _ hrun y hy ()⟩

end hnn

end Torchdyn
