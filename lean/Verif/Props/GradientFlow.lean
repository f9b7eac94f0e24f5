import Verif.Props.EnergyDescent
import Verif.Props.EquilibriumAdaptive

/-!
Property C156: a GNF with a strongly convex energy converges to the minimiser under `euler`, `midpoint`, `rk4` and `dopri5`.
-/

set_option linter.unusedSectionVars false

namespace Torchdyn

open Spec Set

variable {B O A : Type} [Fintype B] [DecidableEq B] [Fintype O] {d : Nat}

section conj

variable {V W : Type} [NormedAddCommGroup V] [NormedSpace ℝ V] [NormedAddCommGroup W] [InnerProductSpace ℝ W]

/-- The stages in other coordinates. -/
theorem rkStagesT_conj (T : V ≃ₗ[ℝ] W) (f : ℝ → V → V) (x : V) (t h : ℝ) : ∀ (rows : List (ℝ × List ℝ)) (ks : List V),
    rkStagesT (fun t w => T (f t (T.symm w))) (T x) t h rows (ks.map T) = (rkStagesT f x t h rows ks).map T := by
  have hcomb : ∀ (row : List ℝ) (ks : List V), comb row (ks.map T) = T (comb row ks) := by
    intro row
    induction row with
    | nil => intro ks; simp [comb]
    | cons c row ih =>
      intro ks
      cases ks with
      | nil => simp [comb]
      | cons k ks => simp [comb, ih]
  intro rows
  induction rows with
  | nil => intro ks; rfl
  | cons r rows ih =>
    intro ks
    have e : T.symm (T x + h • comb r.2 (ks.map T)) = x + h • comb r.2 ks := by
      rw [hcomb, ← map_smul, ← map_add, LinearEquiv.symm_apply_apply]
    rw [rkStagesT, rkStagesT, e, ← ih]
    simp

theorem rk4Update_conj (T : V ≃ₗ[ℝ] W) (f : ℝ → V → V) (x : V) (t h : ℝ) :
    rk4Update (fun t w => T (f t (T.symm w))) (T x) t h = T (rk4Update f x t h) := by
  rw [rk4_rkT, rk4_rkT, map_add, map_smul]
  congr 2
  have := rkStagesT_conj T f x t h [(0, []), (0, [1 / 2]), (1 / 2, [0, 1 / 2]), (1 / 2, [0, 0, 1])] []
  rw [List.map_nil] at this
  rw [this]
  simp [rkStagesT, comb]

/-- The contraction of the steps in the norm of other coordinates. -/
theorem ExplicitMethod.contract_conj {solver : Solver (Except PyErr) ℝ V A} {p : ℕ} (hm : ExplicitMethod V A solver p) (args : A)
    (T : V ≃ₗ[ℝ] W) {f : ℝ → V → V} {L μ : ℝ} (hL : ∀ t x y, ‖T (f t x) - T (f t y)‖ ≤ L * ‖T x - T y‖)
    (hc : ∀ t x y, inner ℝ (T x - T y) (T (f t x) - T (f t y)) ≤ -μ * ‖T x - T y‖ ^ 2) (hμ : 0 < μ) (hμL : μ ≤ L) :
    ∃ φ, SteppedBy solver f args φ ∧ (∀ x y t h, 0 ≤ h → 20 * L ^ 2 * h ≤ μ →
      ‖T (φ x t h) - T (φ y t h)‖ ≤ (1 - μ * h / 2) * ‖T x - T y‖) ∧ ∀ z, (∀ t, f t z = 0) → ∀ t h, φ z t h = z := by
  have hL' : ∀ t x y, ‖(fun t w => T (f t (T.symm w))) t x - (fun t w => T (f t (T.symm w))) t y‖ ≤ L * ‖x - y‖ := by
    intro t x y
    simpa using hL t (T.symm x) (T.symm y)
  have hc' : Contracting μ (fun t w => T (f t (T.symm w))) := by
    intro t x y
    simpa using hc t (T.symm x) (T.symm y)
  cases hm with
  | euler =>
    refine ⟨_, euler_steppedBy f args, fun x y t h h0 hh => ?_, fun z hz t h => by simp [hz]⟩
    simpa using euler_contract hL' hc' hμ hμL (T x) (T y) t h0 hh
  | midpoint =>
    refine ⟨_, midpoint_steppedBy f args, fun x y t h h0 hh => ?_, fun z hz t h => by simp [hz]⟩
    have := midpoint_contract hL' hc' hμ hμL (T x) (T y) t h0 hh
    simpa only [LinearEquiv.symm_apply_apply, ← map_smul, ← map_add] using this
  | rk4 =>
    refine ⟨_, rk4_steppedBy f args, fun x y t h h0 hh => ?_, fun z hz t h => by rw [rk4_rkT]; simp [rkStagesT, comb, hz]⟩
    have := rk4_contract hL' hc' hμ hμL (T x) (T y) t h0 hh
    rwa [rk4Update_conj, rk4Update_conj] at this

end conj

/-- The tensor as a vector with the Euclidean norm. -/
def toEuclid : RowBatch B d ≃ₗ[ℝ] EuclideanSpace ℝ (B × Fin d) :=
  { toFun := fun x => WithLp.toLp 2 fun p => x p.1 p.2
    invFun := fun w b i => w (b, i)
    map_add' := fun _ _ => rfl
    map_smul' := fun _ _ => rfl
    left_inv := fun _ => rfl
    right_inv := fun _ => rfl }

theorem toEuclid_apply (x : RowBatch B d) (p : B × Fin d) : toEuclid x p = x p.1 p.2 := rfl

theorem toEuclid_norm_sq (x : RowBatch B d) : ‖toEuclid x‖ ^ 2 = sqNorm x := by
  rw [EuclideanSpace.norm_sq_eq, sqNorm, ← Fintype.sum_prod_type' fun b i => x b i ^ 2]
  exact Finset.sum_congr rfl fun p _ => by rw [toEuclid_apply, Real.norm_eq_abs, sq_abs]

theorem toEuclid_inner (x y : RowBatch B d) : inner ℝ (toEuclid x) (toEuclid y) = pairing x y := by
  rw [PiLp.inner_apply, pairing, ← Fintype.sum_prod_type' fun b i => x b i * y b i]
  exact Finset.sum_congr rfl fun p _ => by rw [toEuclid_apply, toEuclid_apply]; exact mul_comm _ _

/-- Strong convexity with modulus `μ`. -/
def StronglyConvex (μ : ℝ) (φ : RowBatch B d → ℝ) : Prop := ConvexOn ℝ univ fun x => φ x - μ / 2 * sqNorm x

theorem quad_eq_sqNorm (x : RowBatch B d) : ∑ b, quadEnergy x b = sqNorm x / 2 := by
  simp [quadEnergy, sqNorm, Finset.sum_div]

theorem quad_differentiable : Differentiable ℝ (fun x : RowBatch B d => ∑ b, quadEnergy x b) := by
  unfold quadEnergy
  fun_prop

/-- The gradient of a strongly convex function is strongly monotone. -/
theorem StronglyConvex.monotone {φ : RowBatch B d → ℝ} {μ : ℝ} (hφ : Differentiable ℝ φ) (hc : StronglyConvex μ φ)
    (x y : RowBatch B d) : μ * sqNorm (x - y) ≤ pairing (x - y) (autogradGrad φ x - autogradGrad φ y) := by
  have e : (fun x => φ x - μ / 2 * sqNorm x) = fun x => φ x - μ * ∑ b, quadEnergy x b := by
    funext x
    rw [quad_eq_sqNorm]
    ring
  have hd : Differentiable ℝ (fun x => φ x - μ * ∑ b, quadEnergy x b) := hφ.sub (quad_differentiable.const_mul μ)
  have hg : ∀ z, autogradGrad (fun x => φ x - μ * ∑ b, quadEnergy x b) z = autogradGrad φ z - μ • z := by
    intro z
    funext b i
    have h1 : fderiv ℝ (fun x => φ x - μ * ∑ b, quadEnergy x b) z =
        fderiv ℝ φ z - μ • fderiv ℝ (fun x : RowBatch B d => ∑ b, quadEnergy x b) z := by
      rw [fderiv_fun_sub (hφ z) ((quad_differentiable z).const_mul μ), fderiv_const_mul (quad_differentiable z)]
    have h2 := congrFun (congrFun (quadEnergy_grad z) b) i
    simp only [autogradGrad] at h2 ⊢
    rw [h1]
    simp [h2, autogradGrad]
  unfold StronglyConvex at hc
  rw [e] at hc
  have h1 := convex_tangent hd hc x y
  have h2 := convex_tangent hd hc y x
  rw [hg] at h1 h2
  have h3 : sqNorm (x - y) = pairing (x - y) (x - y) := (pairing_self _).symm
  have e1 : pairing (autogradGrad φ x - μ • x) (y - x) + pairing (autogradGrad φ y - μ • y) (x - y) ≤ 0 := by linarith
  rw [pairing_sub_left, pairing_sub_left, pairing_smul_left, pairing_smul_left] at e1
  rw [h3, pairing_comm (x - y) (autogradGrad φ x - _), pairing_sub_left, pairing_sub_left]
  have n : ∀ u : RowBatch B d, pairing u (y - x) = -pairing u (x - y) := by
    intro u
    rw [pairing_comm, pairing_comm u, pairing_sub_left, pairing_sub_left]
    ring
  rw [n, n] at e1
  linarith

/-- **C156.** Let the total energy of a GNF be differentiable and strongly convex with modulus `μ`, with a gradient of Lipschitz
constant `L`, and `z` a state of least energy. On every accepted increasing grid, however long, with gaps at most `μ / (20 L²)`, the
states returned by `odeint` with `euler`, `midpoint` or `rk4` converge to `z` exponentially, and so do their energies. -/
theorem C156_convergence {solver : Solver (Except PyErr) ℝ (RowBatch B d) A} {p : ℕ}
    (hm : ExplicitMethod (RowBatch B d) A solver p) (args : A) (energy : RowBatch B d → O → ℝ)
    (he : Differentiable ℝ fun y => ∑ o, energy y o) {L μ : ℝ} (hL : GradLipschitz (fun y => ∑ o, energy y o) L)
    (hμ : 0 < μ) (hμL : μ ≤ L) (hc : StronglyConvex μ fun y => ∑ o, energy y o) (z : RowBatch B d)
    (hz : ∀ y, ∑ o, energy z o ≤ ∑ o, energy y o) (x : RowBatch B d) (t0 t1 : ℝ) (rest : List ℝ)
    (hinc : (t0 :: t1 :: rest).Pairwise (· < ·)) (hsep : Separated (t0 :: t1 :: rest))
    (hgap : ∀ (k : ℕ) (t t' : ℝ), (t0 :: t1 :: rest)[k]? = some t → (t0 :: t1 :: rest)[k + 1]? = some t' →
      20 * L ^ 2 * (t' - t) ≤ μ) :
    ∃ sol, odeintFixed (pureField fun _ => gnfForward energy) x (t0 :: t1 :: rest) solver [] args =
        .ok (t0 :: t1 :: rest, sol) ∧ sol.length = (t0 :: t1 :: rest).length ∧
      ∀ (k : ℕ) (t : ℝ) (y : RowBatch B d), (t0 :: t1 :: rest)[k]? = some t → sol[k]? = some y →
        sqNorm (y - z) ≤ Real.exp (-(μ * (t - t0))) * sqNorm (x - z) ∧
        ∑ o, energy y o - ∑ o, energy z o ≤ L / 2 * Real.exp (-(μ * (t - t0))) * sqNorm (x - z) := by
  have hL0 : 0 < L := hμ.trans_le hμL
  have hgnf : ∀ y, gnfForward energy y = -autogradGrad (fun y => ∑ o, energy y o) y := fun y => rfl
  have hgz : autogradGrad (fun y => ∑ o, energy y o) z = 0 := by
    have h1 : IsLocalMin (fun y => ∑ o, energy y o) z := Filter.Eventually.of_forall hz
    funext b i
    simp [autogradGrad, h1.fderiv_eq_zero]
  have hsub : ∀ u v : RowBatch B d, toEuclid (gnfForward energy u) - toEuclid (gnfForward energy v) =
      -toEuclid (autogradGrad (fun y => ∑ o, energy y o) u - autogradGrad (fun y => ∑ o, energy y o) v) := by
    intro u v
    rw [hgnf, hgnf, ← map_sub, ← map_neg]
    congr 1
    abel
  obtain ⟨φ, hs, hφ, hfix⟩ := hm.contract_conj args (toEuclid (B := B) (d := d)) (f := fun _ => gnfForward energy) (L := L) (μ := μ)
    (fun _ u v => by
      rw [hsub, norm_neg]
      refine le_of_sq_le_sq ?_ (by positivity)
      rw [mul_pow, toEuclid_norm_sq, ← map_sub, toEuclid_norm_sq]
      exact hL u v)
    (fun _ u v => by
      rw [hsub, inner_neg_right, ← map_sub, toEuclid_inner, toEuclid_norm_sq]
      have := hc.monotone he u v
      linarith) hμ hμL
  have hdir : t0 ≤ t1 := ((List.pairwise_cons.1 hinc).1 t1 (by simp)).le
  obtain ⟨sol, h1, tr⟩ := C12_trajectory hs x t0 t1 rest hdir hsep
  refine ⟨sol, h1, tr.length_eq, ?_⟩
  have key : ∀ (k : ℕ) (t : ℝ) (y : RowBatch B d), (t0 :: t1 :: rest)[k]? = some t → sol[k]? = some y →
      ‖toEuclid y - toEuclid z‖ ≤ Real.exp (-(μ * (t - t0) / 2)) * ‖toEuclid x - toEuclid z‖ := by
    intro k
    induction k with
    | zero =>
      intro t y ht hy
      rw [tr.start] at hy
      simp only [List.getElem?_cons_zero, Option.some.injEq] at ht hy
      subst ht hy
      simp
    | succ k ih =>
      intro t' y' ht' hy'
      have hk : k + 1 < (t0 :: t1 :: rest).length := (List.getElem?_eq_some_iff.1 ht').1
      obtain ⟨t, ht⟩ : ∃ t, (t0 :: t1 :: rest)[k]? = some t := ⟨_, List.getElem?_eq_getElem (by omega)⟩
      obtain ⟨y, hy⟩ : ∃ y, sol[k]? = some y := ⟨_, List.getElem?_eq_getElem (by rw [tr.length_eq]; omega)⟩
      have hnext := tr.next k t t' y ht ht' hy
      rw [hy'] at hnext
      cases hnext
      have hg0 := grid_gap hinc ht ht'
      have hg := hgap k t t' ht ht'
      have h2 := hφ y z t (t' - t) hg0 hg
      rw [hfix z (fun _ => by rw [hgnf, hgz, neg_zero])] at h2
      refine h2.trans ((mul_le_mul_of_nonneg_left (ih t y ht hy) (contract_factor hμ hμL hg0 hg)).trans ?_)
      rw [← mul_assoc]
      have h3 := exp_step (μ := μ) (g := t' - t) (τ := t - t0)
      rw [show t - t0 + (t' - t) = t' - t0 by ring] at h3
      exact mul_le_mul_of_nonneg_right h3 (norm_nonneg _)
  intro k t y ht hy
  have h2 : sqNorm (y - z) ≤ Real.exp (-(μ * (t - t0))) * sqNorm (x - z) := by
    have h3 := pow_le_pow_left₀ (norm_nonneg _) (key k t y ht hy) 2
    rw [mul_pow, ← map_sub, ← map_sub, toEuclid_norm_sq, toEuclid_norm_sq, ← Real.exp_nat_mul] at h3
    rwa [show ((2 : ℕ) : ℝ) * -(μ * (t - t0) / 2) = -(μ * (t - t0)) by push_cast; ring] at h3
  refine ⟨h2, ?_⟩
  have h4 := descent_lemma he hL0.le hL z (y - z)
  rw [hgz, add_sub_cancel] at h4
  have h5 : pairing (0 : RowBatch B d) (y - z) = 0 := by simp [pairing]
  have h6 := mul_le_mul_of_nonneg_left h2 (show 0 ≤ L / 2 by positivity)
  linarith

/-- The GNF on the entries of the tensor, the form of the state in the adaptive model. -/
noncomputable def gnfEntries (energy : RowBatch B d → O → ℝ) (x : B × Fin d → ℝ) : B × Fin d → ℝ :=
  fun p => gnfForward energy (fun b i => x (b, i)) p.1 p.2

theorem gnfEntries_contDiff (energy : RowBatch B d → O → ℝ) (he : ContDiff ℝ 3 fun y => ∑ o, energy y o) :
    ContDiff ℝ 2 (gnfEntries energy) := by
  refine contDiff_pi.2 fun p => ?_
  have h1 : ContDiff ℝ 2 (fun x : B × Fin d → ℝ => (fun b i => x (b, i) : RowBatch B d)) :=
    contDiff_pi.2 fun b => contDiff_pi.2 fun i => contDiff_apply ℝ ℝ (b, i)
  have h2 : ContDiff ℝ 2 (fderiv ℝ fun y => ∑ o, energy y o) := he.fderiv_right (by norm_num)
  exact ((h2.comp h1).clm_apply contDiff_const).neg

theorem eucl_sq_entries (v : B × Fin d → ℝ) : eucl v ^ 2 = sqNorm (fun b i => v (b, i) : RowBatch B d) := by
  rw [← toEuclid_norm_sq]
  rfl

theorem entries_sub (y : B × Fin d → ℝ) (z : RowBatch B d) :
    (fun b i => (y - fun p : B × Fin d => z p.1 p.2) (b, i) : RowBatch B d) = (fun b i => y (b, i)) - z := rfl

theorem gnfEntries_apply (energy : RowBatch B d → O → ℝ) (x : B × Fin d → ℝ) (p : B × Fin d) :
    gnfEntries energy x p = -autogradGrad (fun y => ∑ o, energy y o) (fun b i => x (b, i)) p.1 p.2 := rfl

theorem gnfEntries_contracting (energy : RowBatch B d → O → ℝ) (hd : Differentiable ℝ fun y => ∑ o, energy y o) {μ : ℝ}
    (hc : StronglyConvex μ fun y => ∑ o, energy y o) : ContractingEuclid μ (gnfEntries energy) := by
  intro u v
  have h1 := hc.monotone hd (fun b i => u (b, i)) (fun b i => v (b, i))
  rw [sqNorm, pairing] at h1
  rw [Fintype.sum_prod_type, Fintype.sum_prod_type]
  have e : ∀ p, gnfEntries energy u p - gnfEntries energy v p =
      -(autogradGrad (fun y => ∑ o, energy y o) (fun b i => u (b, i)) p.1 p.2 -
        autogradGrad (fun y => ∑ o, energy y o) (fun b i => v (b, i)) p.1 p.2) := by
    intro p
    rw [gnfEntries_apply, gnfEntries_apply]
    ring
  simp only [e, mul_neg, Finset.sum_neg_distrib, neg_mul]
  simp only [Pi.sub_apply] at h1
  linarith

theorem gnfEntries_least (energy : RowBatch B d → O → ℝ) (z : RowBatch B d) (hz : ∀ y, ∑ o, energy z o ≤ ∑ o, energy y o) :
    gnfEntries energy (fun p => z p.1 p.2) = 0 := by
  have h1 : IsLocalMin (fun y => ∑ o, energy y o) z := Filter.Eventually.of_forall hz
  funext p
  have h2 : autogradGrad (fun y => ∑ o, energy y o) z p.1 p.2 = 0 := by simp [autogradGrad, h1.fderiv_eq_zero]
  rw [gnfEntries_apply, h2, neg_zero]
  rfl

/-- **C156.** The same with `dopri5`, without any Lipschitz constant: if the total energy has three continuous derivatives and is
strongly convex with modulus `μ`, then for every radius `ρ` there is `δ > 0` such that from every state within `ρ` of the state of least
energy `z`, on every increasing grid with gaps at most `δ` and for all tolerances, `odeint` returns, and the states converge to `z`
exponentially. -/
theorem C156_dopri5 (energy : RowBatch B d → O → ℝ) (he : ContDiff ℝ 3 fun y => ∑ o, energy y o) {μ : ℝ} (hμ : 0 < μ)
    (hc : StronglyConvex μ fun y => ∑ o, energy y o) (args : A) (z : RowBatch B d)
    (hz : ∀ y, ∑ o, energy z o ≤ ∑ o, energy y o) (ρ : ℝ) : ∃ δ, 0 < δ ∧
    ∀ (x : RowBatch B d) (a t1 : ℝ) (rest : List ℝ) (atol rtol : ℝ) (saveAt : List ℝ) (sel : Finset (B × Fin d)),
    sqNorm (x - z) ≤ ρ ^ 2 → Increasing (a :: t1 :: rest) → GapsAtMost δ (a :: t1 :: rest) → 0 < atol → 0 ≤ rtol →
    ∃ fuel0 xs, (∀ fuel, fuel0 ≤ fuel → odeint fuel (pureField fun _ => gnfEntries energy) (fun p => x p.1 p.2) (a :: t1 :: rest)
        (dopri5Solver (Except PyErr) ℝ (B × Fin d → ℝ) A) atol rtol false false saveAt args sel =
          .ok (some (a :: t1 :: rest, xs))) ∧
      xs.length = (a :: t1 :: rest).length ∧
      ∀ (k : ℕ) (t : ℝ) (y : B × Fin d → ℝ), (a :: t1 :: rest)[k]? = some t → xs[k]? = some y →
        sqNorm ((fun b i => y (b, i)) - z) ≤ Real.exp (-(μ * (t - a))) * sqNorm (x - z) := by
  have hd : Differentiable ℝ fun y => ∑ o, energy y o := he.differentiable (by norm_num)
  have hcon := gnfEntries_contracting energy hd hc
  have hgz := gnfEntries_least energy z hz
  obtain ⟨δ, hδ, H⟩ := C155_dopri5_equilibrium (gnfEntries_contDiff energy he) hμ hcon args _ hgz |ρ|
  refine ⟨δ, hδ, fun x a t1 rest atol rtol saveAt sel hx hinc hgap hat hrt => ?_⟩
  have hx2 : eucl ((fun p : B × Fin d => x p.1 p.2) - fun p => z p.1 p.2) ^ 2 = sqNorm (x - z) := by
    rw [eucl_sq_entries (B := B) (d := d), entries_sub (B := B) (d := d)]
  obtain ⟨fuel0, xs, h1, h2, -, h3⟩ := H (fun p => x p.1 p.2) a t1 rest atol rtol saveAt sel
    (le_of_sq_le_sq (by rw [hx2, sq_abs]; exact hx) (abs_nonneg _)) hinc hgap hat hrt
  refine ⟨fuel0, xs, h1, h2, fun k t y hk hy => ?_⟩
  have h0 : 0 ≤ eucl (y - fun p : B × Fin d => z p.1 p.2) := norm_nonneg _
  have h4 := pow_le_pow_left₀ h0 (h3 k t y hk hy) 2
  rw [mul_pow, hx2, ← Real.exp_nat_mul,
    show ((2 : ℕ) : ℝ) * -(μ * (t - a) / 2) = -(μ * (t - a)) by push_cast; ring] at h4
  rw [eucl_sq_entries (B := B) (d := d), entries_sub (B := B) (d := d)] at h4
  exact h4

theorem quad_stronglyConvex : StronglyConvex 1 (fun x : RowBatch B d => ∑ b, quadEnergy x b) := by
  have e : (fun x : RowBatch B d => ∑ b, quadEnergy x b - 1 / 2 * sqNorm x) = fun _ => 0 := by
    funext x
    rw [quad_eq_sqNorm]
    ring
  rw [StronglyConvex, e]
  exact convexOn_const 0 convex_univ

theorem quad_least (y : RowBatch B d) : ∑ b, quadEnergy (0 : RowBatch B d) b ≤ ∑ b, quadEnergy y b := by
  rw [quad_eq_sqNorm, quad_eq_sqNorm]
  have := sqNorm_nonneg y
  have e : sqNorm (0 : RowBatch B d) = 0 := by simp [sqNorm]
  rw [e]
  linarith

/-- Non-vacuity of `C156_dopri5`: the energy `½ ‖y‖²`. -/
example : ∃ δ : ℝ, 0 < δ ∧ ∀ (x : RowBatch (Fin 3) 2) (t1 : ℝ) (rest : List ℝ), sqNorm x ≤ 100 →
    Increasing (0 :: t1 :: rest) → GapsAtMost δ (0 :: t1 :: rest) →
    ∃ fuel0 xs, (∀ fuel, fuel0 ≤ fuel → odeint fuel (pureField fun _ => gnfEntries quadEnergy) (fun p => x p.1 p.2)
        (0 :: t1 :: rest) (dopri5Solver (Except PyErr) ℝ (Fin 3 × Fin 2 → ℝ) Unit) (1 / 1000) (1 / 1000) false false [] ()
        Finset.univ = .ok (some (0 :: t1 :: rest, xs))) ∧
      ∀ (k : ℕ) (t : ℝ) (y : Fin 3 × Fin 2 → ℝ), (0 :: t1 :: rest)[k]? = some t → xs[k]? = some y →
        sqNorm (fun b i => y (b, i) : RowBatch (Fin 3) 2) ≤ Real.exp (-t) * sqNorm x := by
  obtain ⟨δ, hδ, H⟩ := C156_dopri5 (A := Unit) (quadEnergy : RowBatch (Fin 3) 2 → Fin 3 → ℝ)
    (by unfold quadEnergy; fun_prop) (μ := 1) one_pos quad_stronglyConvex () 0 quad_least 10
  refine ⟨δ, hδ, fun x t1 rest hx hinc hgap => ?_⟩
  obtain ⟨fuel0, xs, h1, -, h3⟩ := H x 0 t1 rest (1 / 1000) (1 / 1000) [] Finset.univ (by rw [sub_zero]; linarith) hinc hgap
    (by norm_num) (by norm_num)
  refine ⟨fuel0, xs, h1, fun k t y hk hy => ?_⟩
  have := h3 k t y hk hy
  simpa using this

/-- Non-vacuity: the energy `½ ‖y‖²` is strongly convex with modulus 1, its gradient has Lipschitz constant 1, and it is least at 0. -/
example (x : RowBatch (Fin 3) 2) (t1 : ℝ) (rest : List ℝ) (hinc : ((0 : ℝ) :: t1 :: rest).Pairwise (· < ·))
    (hsep : Separated ((0 : ℝ) :: t1 :: rest))
    (hgap : ∀ (k : ℕ) (t t' : ℝ), ((0 : ℝ) :: t1 :: rest)[k]? = some t → ((0 : ℝ) :: t1 :: rest)[k + 1]? = some t' →
      t' - t ≤ 1 / 20) :
    ∃ sol, odeintFixed (pureField fun _ => gnfForward quadEnergy) x (0 :: t1 :: rest)
        (rk4Solver (Except PyErr) ℝ (RowBatch (Fin 3) 2) Unit) [] () = .ok (0 :: t1 :: rest, sol) ∧
      ∀ (k : ℕ) (t : ℝ) (y : RowBatch (Fin 3) 2), ((0 : ℝ) :: t1 :: rest)[k]? = some t → sol[k]? = some y →
        sqNorm y ≤ Real.exp (-t) * sqNorm x := by
  obtain ⟨sol, h1, -, h3⟩ := C156_convergence (A := Unit) .rk4 () quadEnergy quad_differentiable (L := 1) (μ := 1)
    (fun u v => by rw [quadEnergy_grad, quadEnergy_grad]; simp) one_pos le_rfl
    quad_stronglyConvex 0 quad_least x 0 t1 rest hinc hsep
    (fun k t t' hk hk' => by have := hgap k t t' hk hk'; linarith)
  refine ⟨sol, h1, fun k t y hk hy => ?_⟩
  have := (h3 k t y hk hy).1
  simpa using this

end Torchdyn
