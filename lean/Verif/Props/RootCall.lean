import Verif.Proofs.Pinverse
import Verif.Props.RootConvergence

/-!
Property C127: what `root_find` returns when it is called with a residual and a starting point, the Jacobian being its own.
-/

set_option linter.unusedSectionVars false
set_option linter.unusedSimpArgs false

namespace Torchdyn

variable {β ι ο : Type} [Fintype β] [Fintype ι] [Fintype ο]

/-! ### Affine residuals -/

/-- The residual `A x + c`. -/
def affineRow (A : Matrix ο ι ℝ) (c : ο → ℝ) (x : ι → ℝ) : ο → ℝ := A.mulVec x + c

/-- `zs` minimises `‖A z + c‖` and, among all points that do, is nearest to `z0`. -/
def IsNearestLeastSquares (A : Matrix ο ι ℝ) (c : ο → ℝ) (z0 zs : ι → ℝ) : Prop :=
  (∀ z : ι → ℝ, ∑ o, ((∑ i, A o i * zs i) + c o) ^ 2 ≤ ∑ o, ((∑ i, A o i * z i) + c o) ^ 2) ∧
    ∀ z : ι → ℝ, (∑ o, ((∑ i, A o i * z i) + c o) ^ 2 ≤ ∑ o, ((∑ i, A o i * zs i) + c o) ^ 2) →
      ∑ i, (zs i - z0 i) ^ 2 ≤ ∑ i, (z i - z0 i) ^ 2

theorem rowJacobian_affine (A : Matrix ο ι ℝ) (c : ο → ℝ) (x : ι → ℝ) : rowJacobian (affineRow A c) x = A := by
  classical
  have h : HasFDerivAt (affineRow A c) (LinearMap.toContinuousLinearMap A.mulVecLin) x :=
    ((LinearMap.toContinuousLinearMap A.mulVecLin).hasFDerivAt (x := x)).add_const c
  funext o i
  rw [rowJacobian, h.fderiv]
  change A.mulVec (Pi.single i 1) o = A o i
  rw [Matrix.mulVec_single_one]
  rfl

open Matrix in
/-- The Newton point of an affine residual with the pseudo-inverse. -/
theorem nearest_leastSquares {A : Matrix ο ι ℝ} {P : Matrix ι ο ℝ} (h : IsPinverse A P) (c : ο → ℝ) (z0 : ι → ℝ) :
    IsNearestLeastSquares A c z0 (z0 - P.mulVec (affineRow A c z0)) := by
  set r := affineRow A c z0 with hr
  set zs := z0 - P.mulVec r with hzs
  have sq : ∀ {κ : Type} [Fintype κ] (v : κ → ℝ), ∑ k, v k ^ 2 = v ⬝ᵥ v := fun v => by
    simp only [dotProduct, sq]
  have eA : ∀ z : ι → ℝ, ∑ o, ((∑ i, A o i * z i) + c o) ^ 2 = affineRow A c z ⬝ᵥ affineRow A c z := fun z => sq (affineRow A c z)
  -- the residual at `zs` is orthogonal to the range
  have hres : affineRow A c zs = r - (A * P).mulVec r := by
    rw [hzs, affineRow, mulVec_sub, mulVec_mulVec, hr, affineRow]
    abel
  have horth : ∀ w : ι → ℝ, A.mulVec w ⬝ᵥ affineRow A c zs = 0 := by
    intro w
    have e : Aᵀ * (A * P) = Aᵀ := by
      have := congrArg Matrix.transpose h.mpm
      rwa [transpose_mul, h.symm_left] at this
    rw [hres, dotProduct_comm, dotProduct_mulVec, ← mulVec_transpose, mulVec_sub, mulVec_mulVec, e, sub_self, zero_dotProduct]
  have hpyth : ∀ z, affineRow A c z ⬝ᵥ affineRow A c z =
      affineRow A c zs ⬝ᵥ affineRow A c zs + A.mulVec (z - zs) ⬝ᵥ A.mulVec (z - zs) := by
    intro z
    have e : affineRow A c z = affineRow A c zs + A.mulVec (z - zs) := by
      rw [affineRow, affineRow, mulVec_sub A z zs]
      abel
    have h1 := horth (z - zs)
    have h2 : affineRow A c zs ⬝ᵥ A.mulVec (z - zs) = 0 := by rw [dotProduct_comm, h1]
    rw [e, add_dotProduct, dotProduct_add, dotProduct_add, h1, h2]
    ring
  have nonneg : ∀ {κ : Type} [Fintype κ] (v : κ → ℝ), 0 ≤ v ⬝ᵥ v := fun v => by
    rw [← sq]
    exact Finset.sum_nonneg fun _ _ => sq_nonneg _
  refine ⟨fun z => ?_, fun z hz => ?_⟩
  · rw [eA, eA, hpyth z]
    linarith [nonneg (A.mulVec (z - zs))]
  · rw [eA, eA, hpyth z] at hz
    have h0 : A.mulVec (z - zs) ⬝ᵥ A.mulVec (z - zs) = 0 := le_antisymm (by linarith) (nonneg _)
    have h1 : A.mulVec (z - zs) = 0 := dotProduct_self_eq_zero.1 h0
    have h2 : (zs - z0) ⬝ᵥ (z - zs) = 0 := by
      have e : zs - z0 = (P * A).mulVec (-P.mulVec r) := by
        rw [mulVec_neg, mulVec_mulVec, h.pmp, hzs]
        abel
      rw [e, dotProduct_comm, dotProduct_mulVec, ← mulVec_transpose, h.symm_right, ← mulVec_mulVec, h1, mulVec_zero,
        zero_dotProduct]
    have e1 : ∑ i, (zs i - z0 i) ^ 2 = (zs - z0) ⬝ᵥ (zs - z0) := sq (zs - z0)
    have e2 : ∑ i, (z i - z0 i) ^ 2 = (z - z0) ⬝ᵥ (z - z0) := sq (z - z0)
    have e3 : z - z0 = (zs - z0) + (z - zs) := by abel
    rw [e1, e2, e3, add_dotProduct, dotProduct_add, dotProduct_add, h2, dotProduct_comm (z - zs), h2]
    linarith [nonneg (z - zs)]

/-- The specification on one equation `x + y = 2` in two unknowns: from the origin the nearest solution is `(1, 1)`. -/
example : IsNearestLeastSquares (fun (_ : Unit) (_ : Fin 2) => (1 : ℝ)) (fun _ => -2) (fun _ => 0) (fun _ => 1) := by
  refine ⟨fun z => ?_, fun z hz => ?_⟩
  · simp only [Fin.sum_univ_two, Finset.univ_unique, Finset.sum_singleton]
    norm_num
    positivity
  · simp only [Fin.sum_univ_two, Finset.univ_unique, Finset.sum_singleton] at hz ⊢
    norm_num at hz ⊢
    nlinarith [sq_nonneg (z 0 - z 1)]

theorem rootFindRows_eq {method search : String} {p : RootMethod} {q : SearchMethod} (hp : (method, p) ∈ rootSolverDict)
    (hq : (search, q) ∈ searchMethods) [Nonempty β] (cfg : RootCfg) (G : (ι → ℝ) → (ο → ℝ)) (z : Batch β ι) (alpha : ℝ) (fuel : ℕ) :
    rootFindRows cfg method search G z alpha fuel =
      rootFind cfg method search (fun z b => G (z b)) (initialInverse G z) z alpha fuel := by
  have h1 : method ∈ rootSolverDict.map Prod.fst := List.mem_map.2 ⟨_, hp, rfl⟩
  have h2 : search ∈ searchMethods.map Prod.fst := List.mem_map.2 ⟨_, hq, rfl⟩
  rw [rootFindRows, if_neg (by simp only [not_or, not_not]; exact ⟨h1, h2⟩), if_neg Fintype.card_ne_zero]

open Matrix in
/-- **C127 (affine residuals).** For a residual `A x + c` with any matrix, rectangular or singular, `root_find` with either
Broyden method and no line search returns, for every sample, a point on the segment from the start to the least-squares
solution nearest to the start, the remaining part being exactly `(1 - alpha)^n` after `n` iterations. -/
theorem C127_affine {method : String} (hm : method = "broyden" ∨ method = "broyden_fast") [Nonempty β] (cfg : RootCfg)
    (A : Matrix ο ι ℝ) (c : ο → ℝ) (z : Batch β ι) (alpha : ℝ) (fuel : ℕ) (hf : 7 ≤ fuel) :
    ∃ s, rootFindRows cfg method "none" (fun x o => (∑ i, A o i * x i) + c o) z alpha fuel = .ok (some s) ∧
      (s.terminated = false → s.iteration = cfg.maxiters + 1) ∧
      ∀ b, ∃ zs, IsNearestLeastSquares A c (z b) zs ∧
        ∀ i, s.z b i = zs i + (1 - alpha) ^ s.iteration * (z b i - zs i) := by
  classical
  obtain ⟨p, hp, hb⟩ : ∃ p, (method, p) ∈ rootSolverDict ∧ IsBroyden p := by
    rcases hm with rfl | rfl
    · exact ⟨.broyden, by simp [rootSolverDict], Or.inl rfl⟩
    · exact ⟨.broydenFast, by simp [rootSolverDict], Or.inr rfl⟩
  have hq : ("none", SearchMethod.none) ∈ searchMethods := by simp [searchMethods]
  have hG : (fun (x : ι → ℝ) o => (∑ i, A o i * x i) + c o) = affineRow A c := rfl
  rw [hG, rootFindRows_eq hp hq, rootFind_names hp hq]
  set P := pinverse A with hP
  have hpi : IsPinverse A P := pinverse_spec A
  have hJ : initialInverse (affineRow A c) z = fun _ => P := by
    funext b
    rw [initialInverse, rowJacobian_affine]
  have hPr : ∀ (v : ο → ℝ) (i : ι), ∑ o, v o * P i o = P.mulVec v i := fun v i => by
    simp only [mulVec, dotProduct, mul_comm]
  set g : Batch β ι → Batch β ο := fun z b => affineRow A c (z b) with hg
  obtain ⟨s, k1, ⟨k2, k3⟩, k4⟩ := rootLoop_invariant (cfg := cfg) (method := p) (g := g) hb hf alpha
    (fun n y J => J = (fun _ => P) ∧ ∀ b, y b = z b - (1 - (1 - alpha) ^ n) • P.mulVec (affineRow A c (z b)))
    (by
      rintro n y y' J ⟨rfl, hy⟩ hy'
      have hd : ∀ b, P.mulVec (affineRow A c (y b)) = (1 - alpha) ^ n • P.mulVec (affineRow A c (z b)) := by
        intro b
        have e : affineRow A c (y b) = affineRow A c (z b) -
            (1 - (1 - alpha) ^ n) • A.mulVec (P.mulVec (affineRow A c (z b))) := by
          rw [hy b, affineRow, mulVec_sub, mulVec_smul, affineRow]
          abel
        rw [e, mulVec_sub, mulVec_smul, mulVec_mulVec, mulVec_mulVec, hpi.pmp]
        module
      have hy1 : ∀ b, y' b = y b - alpha • P.mulVec (affineRow A c (y b)) := by
        intro b
        funext i
        rw [hy']
        simp only [hg, hPr, Pi.sub_apply, Pi.smul_apply, smul_eq_mul]
      refine ⟨?_, fun b => ?_⟩
      · apply updateOf_fixed
        intro b i
        have e1 : (fun o => g y' b o - g y b o) = A.mulVec (y' b - y b) := by
          funext o
          simp only [hg, affineRow, mulVec_sub, Pi.add_apply, Pi.sub_apply]
          ring
        have e2 : P.mulVec (A.mulVec (y' b - y b)) = y' b - y b := by
          rw [hy1 b, sub_sub_cancel_left, hd b, mulVec_neg, mulVec_neg, mulVec_smul, mulVec_smul, mulVec_smul, mulVec_smul,
            mulVec_mulVec, mulVec_mulVec, hpi.pmp]
        have e3 : ∑ o, P i o * (g y' b o - g y b o) = P.mulVec (fun o => g y' b o - g y b o) i := rfl
        rw [e3, e1, e2, Pi.sub_apply]
      · rw [hy1 b, hd b, hy b, pow_succ]
        module)
    (cfg.maxiters + 1) ⟨0, z, fun _ _ => 0, g z, initialInverse (affineRow A c) z, alpha, none, false⟩ rfl rfl rfl
    ⟨hJ, fun b => by simp⟩
  refine ⟨s, k1, by simpa using k4, fun b => ⟨_, nearest_leastSquares hpi c (z b), fun i => ?_⟩⟩
  rw [k3 b]
  simp only [Pi.sub_apply, Pi.smul_apply, smul_eq_mul]
  ring

/-! ### Residuals with a regular root -/

/-- A function of rows, with the Euclidean norm. -/
def rowMap (G : (ι → ℝ) → (ι → ℝ)) (x : EuclideanSpace ℝ ι) : EuclideanSpace ℝ ι := toVec (G x.ofLp)

theorem toOp_rowJacobian [DecidableEq ι] {G : (ι → ℝ) → (ι → ℝ)} {x : ι → ℝ} {G' : EuclideanSpace ℝ ι →L[ℝ] EuclideanSpace ℝ ι}
    (h : HasFDerivAt (rowMap G) G' (toVec x)) : toOp (rowJacobian G x) = G' := by
  set e := EuclideanSpace.equiv ι ℝ with he
  have h1 : HasFDerivAt G ((e : EuclideanSpace ℝ ι →L[ℝ] (ι → ℝ)).comp (G'.comp (e.symm : (ι → ℝ) →L[ℝ] EuclideanSpace ℝ ι))) x := by
    have h2 : HasFDerivAt (rowMap G) G' (e.symm x) := h
    exact e.hasFDerivAt.comp x (h2.comp x e.symm.hasFDerivAt)
  have hent : ∀ i o, rowJacobian G x i o = G' (EuclideanSpace.single o 1) i := by
    intro i o
    rw [rowJacobian, h1.fderiv]
    have e1 : ∀ v : ι → ℝ, ((e : EuclideanSpace ℝ ι →L[ℝ] (ι → ℝ)).comp
        (G'.comp (e.symm : (ι → ℝ) →L[ℝ] EuclideanSpace ℝ ι))) v i = G' (toVec v) i := fun _ => rfl
    have e2 : ∀ v : ι → ℝ, (∀ k, v k = if k = o then 1 else 0) → toVec v = EuclideanSpace.single o (1 : ℝ) := by
      intro v hv
      ext k
      simp [toVec_apply, hv, Pi.single_apply]
    rw [e1, e2 _ fun k => by simp [Pi.single_apply]]
  ext y i
  have e0 : toOp (rowJacobian G x) y i = ∑ o, rowJacobian G x i o * y o := rfl
  refine e0.trans ?_
  have hy : y = ∑ o, y o • EuclideanSpace.single o (1 : ℝ) := by
    ext k
    simp [Finset.sum_apply, Pi.single_apply]
  have h3 : G' y = ∑ o, y o • G' (EuclideanSpace.single o (1 : ℝ)) := by
    conv_lhs => rw [hy]
    simp only [map_sum, map_smul]
  rw [h3, WithLp.ofLp_sum, Finset.sum_apply]
  exact Finset.sum_congr rfl fun o _ => by rw [hent, mul_comm]; rfl

theorem toOp_mul [DecidableEq ι] (A B : Matrix ι ι ℝ) (x : EuclideanSpace ℝ ι) : toOp (A * B) x = toOp A (toOp B x) := by
  have : toOp (A * B) = toOp A * toOp B := map_mul (Matrix.toEuclideanCLM (n := ι) (𝕜 := ℝ)) (Matrix.of A) (Matrix.of B)
  rw [this]
  rfl

theorem toOp_one [DecidableEq ι] (x : EuclideanSpace ℝ ι) : toOp (1 : Matrix ι ι ℝ) x = x := by
  have : toOp (1 : Matrix ι ι ℝ) = 1 := map_one (Matrix.toEuclideanCLM (n := ι) (𝕜 := ℝ))
  rw [this]
  rfl

/-- Near a regular root the initial inverse Jacobian is an inverse. -/
theorem initialInverse_near [DecidableEq ι] {G : (ι → ℝ) → (ι → ℝ)}
    {G' : EuclideanSpace ℝ ι → EuclideanSpace ℝ ι →L[ℝ] EuclideanSpace ℝ ι} {A : EuclideanSpace ℝ ι →L[ℝ] EuclideanSpace ℝ ι}
    {zs : EuclideanSpace ℝ ι} {ρ γ : ℝ} (hroot : RegularRoot (rowMap G) G' A zs ρ γ) {z : Batch β ι} {b : β}
    (hz : ‖toVec (z b) - zs‖ ≤ ρ) (hs : ‖A‖ * (γ * ‖toVec (z b) - zs‖) < 1) (x : EuclideanSpace ℝ ι) :
    toOp (initialInverse G z b) (G' (toVec (z b)) x) = x := by
  obtain ⟨J, hJ⟩ := exists_inverse_near hroot hz hs
  have hM := toOp_rowJacobian (hroot.deriv (toVec (z b)) (by rwa [Metric.mem_closedBall, dist_eq_norm]))
  have h1 : (Matrix.of J) * rowJacobian G (z b) = 1 := by
    have : toOp ((Matrix.of J) * rowJacobian G (z b)) = toOp (1 : Matrix ι ι ℝ) := by
      ext1 y
      rw [toOp_mul, hM, toOp_one]
      exact hJ y
    exact (Matrix.toEuclideanCLM (n := ι) (𝕜 := ℝ)).injective this
  have h2 := pinverse_mul_of_left_inverse h1
  rw [← hM, initialInverse, ← toOp_mul, h2, toOp_one]

/-- **C127 (nonlinear residuals).** Local convergence as in C101, of the call itself: if the row function has a root with
invertible derivative then `root_find` without line search, started close enough to it, reduces the distance of that sample
by at least `(1 - alpha / 2)^n` in `n` iterations. Nothing is assumed about the other samples. -/
theorem C127_local [DecidableEq ι] {G : (ι → ℝ) → (ι → ℝ)}
    {G' : EuclideanSpace ℝ ι → EuclideanSpace ℝ ι →L[ℝ] EuclideanSpace ℝ ι} {A : EuclideanSpace ℝ ι →L[ℝ] EuclideanSpace ℝ ι}
    {zs : EuclideanSpace ℝ ι} {ρ γ α : ℝ} (hρ : 0 < ρ) (hγ : 0 ≤ γ) (hroot : RegularRoot (rowMap G) G' A zs ρ γ)
    (hα0 : 0 < α) (hα1 : α ≤ 1) (b : β) :
    ∃ δ, 0 < δ ∧ ∀ (cfg : RootCfg) (method : String), method = "broyden" ∨ method = "broyden_fast" →
      ∀ (z : Batch β ι) (fuel : ℕ), 7 ≤ fuel → ‖toVec (z b) - zs‖ ≤ δ →
      ∃ s, rootFindRows cfg method "none" G z α fuel = .ok (some s) ∧
        (s.terminated = false → s.iteration = cfg.maxiters + 1) ∧
        ‖toVec (s.z b) - zs‖ ≤ (1 - α / 2) ^ s.iteration * ‖toVec (z b) - zs‖ := by
  have hg : ∀ z : Batch β ι, toVec ((fun (z : Batch β ι) b => G (z b)) z b) = rowMap G (toVec (z b)) := fun _ => rfl
  obtain ⟨δ, hδ, H⟩ := C101_local_convergence (g := fun (z : Batch β ι) b => G (z b)) b hρ hγ hroot hg hα0 hα1
  have hpos : 0 < 1 / (2 * (‖A‖ * γ + 1)) := by positivity
  refine ⟨min δ (min ρ (1 / (2 * (‖A‖ * γ + 1)))), lt_min hδ (lt_min hρ hpos), ?_⟩
  intro cfg method hm z fuel hf hz
  have : Nonempty β := ⟨b⟩
  obtain ⟨p, hp⟩ : ∃ p, (method, p) ∈ rootSolverDict := by
    rcases hm with rfl | rfl
    · exact ⟨.broyden, by simp [rootSolverDict]⟩
    · exact ⟨.broydenFast, by simp [rootSolverDict]⟩
  rw [rootFindRows_eq hp (q := .none) (by simp [searchMethods])]
  refine H cfg method hm _ z fuel hf (hz.trans (min_le_left _ _)) fun x => ?_
  refine initialInverse_near hroot (hz.trans ((min_le_right _ _).trans (min_le_left _ _))) ?_ x
  have h1 : ‖toVec (z b) - zs‖ ≤ 1 / (2 * (‖A‖ * γ + 1)) := hz.trans ((min_le_right _ _).trans (min_le_right _ _))
  have h2 : ‖A‖ * γ * ‖toVec (z b) - zs‖ ≤ ‖A‖ * γ * (1 / (2 * (‖A‖ * γ + 1))) :=
    mul_le_mul_of_nonneg_left h1 (by positivity)
  have h3 : ‖A‖ * γ * (1 / (2 * (‖A‖ * γ + 1))) < 1 := by
    rw [mul_one_div, div_lt_one (by positivity)]
    nlinarith [mul_nonneg (norm_nonneg A) hγ]
  rw [← mul_assoc]
  linarith

/-- Non-vacuity: the coupled quadratic residual `x + ‖x‖² (1, 1)` of rows. -/
example (b : β) : ∃ δ, 0 < δ ∧ ∀ (cfg : RootCfg) (z : Batch β (Fin 2)), ‖toVec (z b)‖ ≤ δ →
    ∃ s, rootFindRows cfg "broyden" "none" (fun x i => x i + (x 0 ^ 2 + x 1 ^ 2)) z (1 / 10) 7 = .ok (some s) ∧
      ‖toVec (s.z b)‖ ≤ (19 / 20) ^ s.iteration * ‖toVec (z b)‖ := by
  have hG : rowMap (fun (x : Fin 2 → ℝ) i => x i + (x 0 ^ 2 + x 1 ^ 2)) = quadResidual (toVec fun _ => 1) := by
    funext x
    ext i
    simp [rowMap, quadResidual, toVec, EuclideanSpace.norm_sq_eq]
  obtain ⟨δ, hδ, H⟩ := C127_local (β := β) (G := fun (x : Fin 2 → ℝ) i => x i + (x 0 ^ 2 + x 1 ^ 2))
    (γ := 2 * ‖(toVec fun _ => 1 : EuclideanSpace ℝ (Fin 2))‖) one_pos (by positivity) (by rw [hG]; exact quadratic_regularRoot _) (α := 1 / 10) (by norm_num) (by norm_num) b
  refine ⟨δ, hδ, fun cfg z hz => ?_⟩
  obtain ⟨s, h1, _, h3⟩ := H cfg "broyden" (Or.inl rfl) z 7 le_rfl (by simpa using hz)
  refine ⟨s, h1, ?_⟩
  rw [sub_zero, sub_zero] at h3
  norm_num at h3 ⊢
  exact h3

/-! ### Errors -/

/-- **C127 (errors).** An empty batch raises `RuntimeError`, whatever the residual; a residual that works on batches only
raises what it raises on a row, whatever the batch, the method and the search; unknown names come first. -/
theorem C127_errors (method search : String) :
    (∀ (cfg : RootCfg) (G : (ι → ℝ) → (ο → ℝ)) (z : Batch β ι) (alpha : ℝ) (fuel : ℕ),
      ((¬ ∃ p, (method, p) ∈ rootSolverDict) ∨ (¬ ∃ q, (search, q) ∈ searchMethods) →
        rootFindRows cfg method search G z alpha fuel = .error .assertionError) ∧
      ((∃ p, (method, p) ∈ rootSolverDict) → (∃ q, (search, q) ∈ searchMethods) → IsEmpty β →
        rootFindRows cfg method search G z alpha fuel = .error .runtimeError)) ∧
    ∀ (S : Type) (err : PyErr), (∃ p, (method, p) ∈ rootSolverDict) → (∃ q, (search, q) ∈ searchMethods) → Nonempty β →
      rootFindBatchOnly (β := β) (S := S) method search err = .error err := by
  have hmem : ∀ {α : Type} (l : List (String × α)) (n : String), n ∈ l.map Prod.fst ↔ ∃ p, (n, p) ∈ l := by
    intro α l n
    simp [List.mem_map]
  refine ⟨fun cfg G z alpha fuel => ⟨fun h => ?_, fun h1 h2 h3 => ?_⟩, fun S err h1 h2 h3 => ?_⟩
  · rw [rootFindRows, if_pos (by rwa [hmem, hmem])]
  · rw [rootFindRows, if_neg (by rw [hmem, hmem]; simp only [not_or, not_not]; exact ⟨h1, h2⟩),
      if_pos (Fintype.card_eq_zero_iff.2 h3)]
  · rw [rootFindBatchOnly, if_neg (by rw [hmem, hmem]; simp only [not_or, not_not]; exact ⟨h1, h2⟩),
      if_neg (Fintype.card_ne_zero)]

/-! ### Residuals that carry data per sample -/

/-- One step of `broyden` without line search, on the point and the inverse Jacobian. -/
noncomputable def pairStep {κ : Type} (g : Batch κ ι → Batch κ ι) (alpha : ℝ) (s : Batch κ ι × BatchMat κ ι ι) :
    Batch κ ι × BatchMat κ ι ι :=
  let r := broydenStep (broydenFullUpdate (1 / 10 ^ 6)) g s.1 s.2 (g s.1) alpha
  (r.1, r.2.2.2)

theorem rootLoop3_none {cfg : RootCfg} {g : Batch (β × β) ι → Batch (β × β) ι} {fuel : ℕ} {alpha : ℝ}
    (x : Batch (β × β) ι × BatchMat (β × β) ι ι) (left : ℕ) :
    ∀ s : RootState3 β ι, s.alpha = alpha → s.geval = g s.z → s.terminated = false →
      (s.z, s.Jinv) = (pairStep g alpha)^[s.iteration] x →
      ∃ s', rootLoop3 cfg .broyden .none g fuel left s = .ok (some s') ∧ (s.iteration ≤ s'.iteration ∧ s'.iteration ≤ s.iteration + left) ∧
        (0 < left → s.iteration < s'.iteration) ∧ (s'.terminated = false → s'.iteration = s.iteration + left) ∧
        (s'.z, s'.Jinv) = (pairStep g alpha)^[s'.iteration] x := by
  induction left with
  | zero => exact fun s _ _ _ h => ⟨s, rfl, ⟨le_rfl, le_rfl⟩, fun h => absurd h (lt_irrefl 0), fun _ => rfl, h⟩
  | succ left ih =>
    intro s e1 e2 e3 e4
    set r := broydenStep (broydenFullUpdate (1 / 10 ^ 6)) g s.z s.Jinv s.geval s.alpha with hr
    set t := termCheck3 cfg.fTol cfg.fRtol cfg.xTol cfg.xRtol s.f0Norm r.2.2.1 r.1 r.2.1 with ht
    set s1 : RootState3 β ι := ⟨s.iteration + 1, r.1, r.2.1, r.2.2.1, r.2.2.2, s.alpha, some t.1, t.2⟩ with hs1
    have hrun : rootLoop3 cfg .broyden .none g fuel (left + 1) s =
        if t.2 then .ok (some s1) else rootLoop3 cfg .broyden .none g fuel left s1 := by
      rw [rootLoop3]
      simp only [rootStep3, ← hr, bind, Except.bind, searchAlpha, pure, Except.pure, ← ht, ← hs1]
    have hpair : (s1.z, s1.Jinv) = (pairStep g alpha)^[s1.iteration] x := by
      change (r.1, r.2.2.2) = (pairStep g alpha)^[s.iteration + 1] x
      rw [Function.iterate_succ_apply', ← e4, pairStep, hr, e1, e2]
    rw [hrun]
    by_cases h : t.2 = true
    · rw [if_pos h]
      refine ⟨s1, rfl, ⟨Nat.le_succ _, Nat.add_le_add_left (Nat.le_add_left 1 left) _⟩, fun _ => Nat.lt_succ_self _, fun h' => ?_, hpair⟩
      rw [show s1.terminated = t.2 from rfl, h] at h'
      cases h'
    · rw [if_neg h]
      obtain ⟨s', k1, k2, _, k4, k5⟩ := ih s1 e1 rfl (by simpa using h) hpair
      have k2' : s.iteration + 1 ≤ s'.iteration ∧ s'.iteration ≤ s.iteration + 1 + left := k2
      refine ⟨s', k1, by omega, fun _ => by omega, fun h' => ?_, k5⟩
      rw [k4 h']
      change s.iteration + 1 + left = _
      omega

/-- The diagonal of the big iteration is the iteration of the samples. -/
theorem pairStep_diagonal (G : β → (ι → ℝ) → (ι → ℝ)) (alpha : ℝ) (x : Batch β ι × BatchMat β ι ι)
    (y : Batch (β × β) ι × BatchMat (β × β) ι ι) (h1 : ∀ b, y.1 (b, b) = x.1 b) (h2 : ∀ b, y.2 (b, b) = x.2 b) (n : ℕ) (b : β) :
    ((pairStep (fun z p => G p.2 (z p)) alpha)^[n] y).1 (b, b) = ((pairStep (fun z b => G b (z b)) alpha)^[n] x).1 b ∧
      ((pairStep (fun z p => G p.2 (z p)) alpha)^[n] y).2 (b, b) = ((pairStep (fun z b => G b (z b)) alpha)^[n] x).2 b := by
  induction n with
  | zero => exact ⟨h1 b, h2 b⟩
  | succ n ih =>
    rw [Function.iterate_succ_apply', Function.iterate_succ_apply']
    obtain ⟨i1, i2⟩ := ih
    constructor
    · funext i
      simp only [pairStep, broydenStep, i1, i2]
    · funext i o
      simp only [pairStep, broydenStep, broydenFullUpdate, i1, i2]

/-- **C127 (residuals with data per sample, `broyden`).** The returned tensor has shape `(bs, bs, dims)`; its diagonal
`[b, b]` is what the same number of iterations of the method give from `z[b]` with the Jacobian of the residual of sample `b`
there, each sample for itself.

Missing: the rest of the tensor, which mixes samples (`C127_per_sample_refuted`), and `broyden_fast`, whose update mixes them
on the diagonal as well (`C127_fast_diagonal_refuted`). -/
theorem C127_diagonal_partial [Nonempty β] (cfg : RootCfg) (G : β → (ι → ℝ) → (ι → ℝ)) (z : Batch β ι) (alpha : ℝ) (fuel : ℕ)
    (hf : 7 ≤ fuel) :
    ∃ s3 s, rootFindPerSample cfg "broyden" "none" G z alpha fuel = .ok (some s3) ∧
      (s3.terminated = false → s3.iteration = cfg.maxiters + 1) ∧
      rootFind ⟨-1, cfg.fRtol, cfg.xTol, cfg.xRtol, s3.iteration - 1⟩ "broyden" "none" (fun z b => G b (z b))
        (fun b => pinverse (rowJacobian (G b) (z b))) z alpha fuel = .ok (some s) ∧
      s.iteration = s3.iteration ∧ ∀ b, s3.z (b, b) = s.z b := by
  classical
  set g3 : Batch (β × β) ι → Batch (β × β) ι := fun z p => G p.2 (z p) with hg3
  set g : Batch β ι → Batch β ι := fun z b => G b (z b) with hg
  set J0 : BatchMat β ι ι := fun b => pinverse (rowJacobian (G b) (z b)) with hJ0
  obtain ⟨s3, k1, _, k3, k4, k5⟩ := rootLoop3_none (cfg := cfg) (g := g3) (fuel := fuel) (alpha := alpha)
    ((fun p => z p.2), initialInverse3 G z) (cfg.maxiters + 1)
    ⟨0, fun p => z p.2, fun _ _ => 0, fun p => G p.2 (z p.2), initialInverse3 G z, alpha, none, false⟩ rfl rfl rfl rfl
  have k3' : 0 < s3.iteration := k3 (Nat.succ_pos _)
  have hp : ("broyden", RootMethod.broyden) ∈ rootSolverDict := by simp [rootSolverDict]
  have hq : ("none", SearchMethod.none) ∈ searchMethods := by simp [searchMethods]
  set cfg' : RootCfg := ⟨-1, cfg.fRtol, cfg.xTol, cfg.xRtol, s3.iteration - 1⟩ with hcfg
  obtain ⟨s, l1, _, _, _, l5, l6⟩ := C47_certified hp hq (Or.inl rfl) cfg' g J0 z alpha fuel hf
  have ht : s.terminated = false := by
    by_contra h
    have h' : s.terminated = true := by simpa using h
    obtain ⟨b⟩ := ‹Nonempty β›
    have := ((l6 h') b).1
    have h0 := Real.sqrt_nonneg (∑ o, g s.z b o ^ 2)
    have : Real.sqrt (∑ o, g s.z b o ^ 2) ≤ -1 := this
    linarith
  have hit : s.iteration = s3.iteration := by
    rw [l5 ht]
    change s3.iteration - 1 + 1 = _
    omega
  obtain ⟨s', m1, m2, _⟩ := rootLoop_invariant (cfg := cfg') (method := .broyden) (g := g) (Or.inl rfl) hf alpha
    (fun n y J => (y, J) = (pairStep g alpha)^[n] (z, J0))
    (by
      intro n y y' J h hy'
      rw [Function.iterate_succ_apply', ← h, hy']
      simp only [pairStep, broydenStep, updateOf, mul_comm]) (cfg'.maxiters + 1)
    ⟨0, z, fun _ _ => 0, g z, J0, alpha, none, false⟩ rfl rfl rfl rfl
  have hss : s' = s := by
    rw [rootFind_names hp hq] at l1
    rw [l1] at m1
    exact (Option.some.inj (Except.ok.inj m1)).symm
  subst hss
  refine ⟨s3, s', ?_, by simpa using k4, l1, hit, fun b => ?_⟩
  · rw [rootFindPerSample]
    have e1 : rootSolverDict.find? (fun p => p.1 == "broyden") = some ("broyden", .broyden) := by decide
    have e2 : searchMethods.find? (fun p => p.1 == "none") = some ("none", .none) := by decide
    rw [e1, e2]
    simp only [if_neg (Fintype.card_ne_zero (α := β))]
    exact k1
  · have h1 := congrArg Prod.fst k5
    have h2 := congrArg Prod.fst m2
    change s3.z = _ at h1
    change s'.z = _ at h2
    rw [h1, h2, hit]
    exact (pairStep_diagonal G alpha (z, J0) _ (fun b => rfl) (fun b => rfl) s3.iteration b).1

/-- The residual `x² - b - 1` of sample `b`. -/
def squareRow (b : Fin 2) (x : Unit → ℝ) : Unit → ℝ := fun _ => x () ^ 2 - (b : ℕ) - 1

theorem pinverse_square (b : Fin 2) (x : Unit → ℝ) (hx : x () ≠ 0) : pinverse (rowJacobian (squareRow b) x) () () = 1 / (2 * x ()) := by
  have h0 : HasFDerivAt (fun y : Unit → ℝ => y () ^ 2 - ((b : ℕ) : ℝ) - 1)
      ((2 * x ()) • (ContinuousLinearMap.proj (R := ℝ) (φ := fun _ : Unit => ℝ) ())) x := by
    have h1 := (ContinuousLinearMap.proj (R := ℝ) (φ := fun _ : Unit => ℝ) ()).hasFDerivAt (x := x)
    have h2 := ((h1.pow 2).sub_const ((b : ℕ) : ℝ)).sub_const 1
    refine h2.congr_fderiv ?_
    ext v
    simp
  have hJ : rowJacobian (squareRow b) x () () = 2 * x () := by
    have h1 : HasFDerivAt (squareRow b) (ContinuousLinearMap.pi fun _ : Unit =>
        (2 * x ()) • (ContinuousLinearMap.proj (R := ℝ) (φ := fun _ : Unit => ℝ) ())) x :=
      hasFDerivAt_pi.2 fun _ => h0
    rw [rowJacobian, h1.fderiv]
    simp
  have hp := (pinverse_spec (rowJacobian (squareRow b) x)).mpm
  have e := congrFun (congrFun hp ()) ()
  simp only [Matrix.mul_apply, Finset.univ_unique, Finset.sum_singleton, PUnit.default_eq_unit, hJ] at e
  have h2 : (2 * x ()) ≠ 0 := mul_ne_zero two_ne_zero hx
  rw [eq_div_iff h2]
  have := mul_right_cancel₀ h2 (e.trans (one_mul _).symm)
  linarith

/-- **C127 is false for residuals with data per sample.** Two samples, `x² = 1` and `x² = 2`, started at `1` and `2`: the call
returns a tensor of shape `(2, 2, 1)` that is not a batch of two results repeated, since its slices differ. -/
theorem C127_per_sample_refuted :
    ∃ (cfg : RootCfg) (G : Fin 2 → (Unit → ℝ) → (Unit → ℝ)) (z : Batch (Fin 2) Unit) (s3 : RootState3 (Fin 2) Unit),
      rootFindPerSample cfg "broyden" "none" G z 1 7 = .ok (some s3) ∧
      ¬ ∃ y : Batch (Fin 2) Unit, ∀ a b i, s3.z (a, b) i = y b i := by
  set z : Batch (Fin 2) Unit := fun b _ => (b : ℕ) + 1 with hz
  obtain ⟨s3, k1, k2, k3, _, k5⟩ := rootLoop3_none (cfg := ⟨1 / 10 ^ 2, 1 / 10, 1 / 10 ^ 2, 1, 0⟩) (g := fun z p => squareRow p.2 (z p)) (fuel := 7)
    (alpha := 1) ((fun p => z p.2), initialInverse3 squareRow z) 1
    ⟨0, fun p => z p.2, fun _ _ => 0, fun p => squareRow p.2 (z p.2), initialInverse3 squareRow z, 1, none, false⟩ rfl rfl rfl rfl
  refine ⟨⟨1 / 10 ^ 2, 1 / 10, 1 / 10 ^ 2, 1, 0⟩, squareRow, z, s3, ?_, ?_⟩
  · rw [rootFindPerSample]
    have e1 : rootSolverDict.find? (fun p => p.1 == "broyden") = some ("broyden", .broyden) := by decide
    have e2 : searchMethods.find? (fun p => p.1 == "none") = some ("none", .none) := by decide
    rw [e1, e2]
    simp only [if_neg (Fintype.card_ne_zero (α := Fin 2))]
    exact k1
  · rintro ⟨y, hy⟩
    have hit : s3.iteration = 1 := by
      have l1 : s3.iteration ≤ 0 + 1 := k2.2
      have l2 : 0 < s3.iteration := k3 one_pos
      omega
    rw [hit] at k5
    have h1 := congrArg Prod.fst k5
    change s3.z = _ at h1
    have hval : ∀ a : Fin 2, s3.z (a, 1) () = 2 - (1 / (2 * ((a : ℕ) + 1))) * 2 := by
      intro a
      rw [h1]
      have hne : z a () ≠ 0 := by
        simp only [hz]
        positivity
      have hpin := pinverse_square 1 (z a) hne
      have e : ((pairStep (fun z p => squareRow p.2 (z p)) 1)^[1] (fun p => z p.2, initialInverse3 squareRow z)).1 (a, 1) () =
          z 1 () - 1 * (squareRow 1 (z 1) () * pinverse (rowJacobian (squareRow 1) (z a)) () ()) := by
        simp only [Function.iterate_one, pairStep, broydenStep, initialInverse3, Finset.univ_unique, Finset.sum_singleton]
      rw [e, hpin]
      simp only [squareRow, hz]
      norm_num
      ring
    have h2 := hval 0
    have h3 := hval 1
    rw [hy] at h2 h3
    norm_num at h2 h3
    linarith

end Torchdyn
