import Verif.Props.Energy
import Verif.Props.FixedStep
import Mathlib.Analysis.Convex.Deriv
import Mathlib.Algebra.Order.Chebyshev

/-!
Property C102: integrating a GNF with `euler` is gradient descent on its energy.
-/

set_option linter.unusedSimpArgs false
set_option linter.unusedSectionVars false

namespace Torchdyn

open Spec

variable {B O A : Type} [Fintype B] [DecidableEq B] [Fintype O] {d : Nat}

/-- The sum of the products of the entries of two tensors. -/
def pairing (u v : RowBatch B d) : ℝ := ∑ b, ∑ i, u b i * v b i

/-- The squared Euclidean (Frobenius) norm of a tensor. -/
def sqNorm (v : RowBatch B d) : ℝ := ∑ b, ∑ i, v b i ^ 2

theorem pairing_self (v : RowBatch B d) : pairing v v = sqNorm v := by simp [pairing, sqNorm, sq]

theorem sqNorm_nonneg (v : RowBatch B d) : 0 ≤ sqNorm v := Finset.sum_nonneg fun _ _ => Finset.sum_nonneg fun _ _ => sq_nonneg _

theorem pairing_add_left (u v w : RowBatch B d) : pairing (u + v) w = pairing u w + pairing v w := by
  simp [pairing, add_mul, Finset.sum_add_distrib]

theorem pairing_sub_left (u v w : RowBatch B d) : pairing (u - v) w = pairing u w - pairing v w := by
  simp [pairing, sub_mul, Finset.sum_sub_distrib]

theorem pairing_smul_left (c : ℝ) (u v : RowBatch B d) : pairing (c • u) v = c * pairing u v := by
  simp [pairing, Finset.mul_sum, mul_assoc]

theorem pairing_comm (u v : RowBatch B d) : pairing u v = pairing v u := by
  simp [pairing, mul_comm]

theorem pairing_cauchy (u v : RowBatch B d) : pairing u v ^ 2 ≤ sqNorm u * sqNorm v := by
  have e1 : pairing u v = ∑ p : B × Fin d, u p.1 p.2 * v p.1 p.2 := (Fintype.sum_prod_type' fun b i => u b i * v b i).symm
  have e2 : ∀ w : RowBatch B d, sqNorm w = ∑ p : B × Fin d, w p.1 p.2 ^ 2 := fun w =>
    (Fintype.sum_prod_type' fun b i => w b i ^ 2).symm
  rw [e1, e2, e2]
  exact Finset.sum_mul_sq_le_sq_mul_sq _ _ _

theorem sqNorm_add (u v : RowBatch B d) : sqNorm (u + v) = sqNorm u + 2 * pairing u v + sqNorm v := by
  rw [← pairing_self, ← pairing_self, ← pairing_self, pairing_add_left, pairing_comm u (u + v), pairing_comm v (u + v),
    pairing_add_left, pairing_add_left, pairing_comm v u]
  ring

theorem sqNorm_smul (c : ℝ) (u : RowBatch B d) : sqNorm (c • u) = c ^ 2 * sqNorm u := by
  rw [← pairing_self, ← pairing_self, pairing_smul_left, pairing_comm, pairing_smul_left]
  ring

/-- The gradient of `φ` is Lipschitz with constant `L` in the Euclidean norm. -/
def GradLipschitz (φ : RowBatch B d → ℝ) (L : ℝ) : Prop :=
  ∀ x y, sqNorm (autogradGrad φ x - autogradGrad φ y) ≤ L ^ 2 * sqNorm (x - y)

theorem line_deriv {φ : RowBatch B d → ℝ} (hφ : Differentiable ℝ φ) (x v : RowBatch B d) (s : ℝ) :
    HasDerivAt (fun s : ℝ => φ (x + s • v)) (pairing (autogradGrad φ (x + s • v)) v) s := by
  have h1 : HasDerivAt (fun s : ℝ => x + s • v) v s := by
    simpa using ((hasDerivAt_id s).smul_const v).const_add x
  have h2 := (hφ (x + s • v)).hasFDerivAt.comp_hasDerivAt s h1
  rw [clm_batch_apply] at h2
  exact h2

/-- The descent lemma. -/
theorem descent_lemma {φ : RowBatch B d → ℝ} (hφ : Differentiable ℝ φ) {L : ℝ} (hL0 : 0 ≤ L) (hL : GradLipschitz φ L)
    (x v : RowBatch B d) : φ (x + v) ≤ φ x + pairing (autogradGrad φ x) v + L / 2 * sqNorm v := by
  set c := pairing (autogradGrad φ x) v with hc
  set N := sqNorm v with hN
  have hN0 : 0 ≤ N := sqNorm_nonneg v
  set ψ : ℝ → ℝ := fun s => φ (x + s • v) - s * c - s ^ 2 * (L / 2 * N) with hψ
  have hder : ∀ s : ℝ, HasDerivAt ψ (pairing (autogradGrad φ (x + s • v)) v - c - s * (L * N)) s := by
    intro s
    have h1 := line_deriv hφ x v s
    have h2 : HasDerivAt (fun s : ℝ => s * c) c s := by simpa using (hasDerivAt_id s).mul_const c
    have h3 : HasDerivAt (fun s : ℝ => s ^ 2 * (L / 2 * N)) (s * (L * N)) s := by
      have h := (hasDerivAt_pow 2 s).mul_const (L / 2 * N)
      have e : ((2 : ℕ) : ℝ) * s ^ (2 - 1) * (L / 2 * N) = s * (L * N) := by
        norm_num
        ring
      rwa [e] at h
    exact (h1.sub h2).sub h3
  have hanti : AntitoneOn ψ (Set.Icc 0 1) := by
    refine antitoneOn_of_deriv_nonpos (convex_Icc 0 1) (fun s _ => (hder s).continuousAt.continuousWithinAt)
      (fun s _ => (hder s).differentiableAt.differentiableWithinAt) fun s hs => ?_
    rw [(hder s).deriv]
    have hs0 : 0 ≤ s := (interior_subset hs).1
    have h1 : pairing (autogradGrad φ (x + s • v)) v - c = pairing (autogradGrad φ (x + s • v) - autogradGrad φ x) v := by
      rw [pairing_sub_left]
    have h2 := pairing_cauchy (autogradGrad φ (x + s • v) - autogradGrad φ x) v
    have h3 := hL (x + s • v) x
    rw [add_sub_cancel_left, sqNorm_smul] at h3
    have h4 : pairing (autogradGrad φ (x + s • v) - autogradGrad φ x) v ^ 2 ≤ (s * (L * N)) ^ 2 := by
      calc _ ≤ _ := h2
        _ ≤ (L ^ 2 * (s ^ 2 * N)) * N := mul_le_mul_of_nonneg_right h3 hN0
        _ = (s * (L * N)) ^ 2 := by ring
    have h5 := abs_le_of_sq_le_sq h4 (by positivity)
    rw [h1]
    linarith [le_abs_self (pairing (autogradGrad φ (x + s • v) - autogradGrad φ x) v)]
  have h := hanti (Set.left_mem_Icc.2 zero_le_one) (Set.right_mem_Icc.2 zero_le_one) zero_le_one
  simp only [hψ, one_smul, zero_smul, add_zero, zero_mul, one_mul, one_pow] at h
  norm_num at h
  linarith

/-- A convex function lies above its tangents. -/
theorem convex_tangent {φ : RowBatch B d → ℝ} (hφ : Differentiable ℝ φ) (hc : ConvexOn ℝ Set.univ φ) (x y : RowBatch B d) :
    φ x + pairing (autogradGrad φ x) (y - x) ≤ φ y := by
  have h1 : ConvexOn ℝ Set.univ fun s : ℝ => φ (x + s • (y - x)) := by
    have := hc.comp_affineMap (AffineMap.lineMap x y : ℝ →ᵃ[ℝ] RowBatch B d)
    rw [Set.preimage_univ] at this
    refine this.congr fun s _ => ?_
    simp [AffineMap.lineMap_apply, add_comm]
  have h2 := h1.le_slope_of_hasDerivAt (Set.mem_univ 0) (Set.mem_univ 1) zero_lt_one (line_deriv hφ x (y - x) 0)
  simp only [slope, sub_zero, inv_one, one_smul, zero_smul, add_zero, vsub_eq_sub, add_sub_cancel] at h2
  linarith

/-- The next state of `euler` on a GNF. -/
theorem gnf_step {energy : RowBatch B d → O → ℝ} (he : Differentiable ℝ (fun y => ∑ o, energy y o)) {L : ℝ} (hL0 : 0 ≤ L)
    (hL : GradLipschitz (fun y => ∑ o, energy y o) L) (x : RowBatch B d) (h : ℝ) :
    ∑ o, energy (x + h • gnfForward energy x) o ≤
      ∑ o, energy x o - h * (1 - L * h / 2) * sqNorm (gnfForward energy x) := by
  have h1 := descent_lemma he hL0 hL x (h • gnfForward energy x)
  have e : autogradGrad (fun y => ∑ o, energy y o) x = (-1 : ℝ) • gnfForward energy x := by
    funext b i
    change _ = -1 * -autogradGrad (outputSum energy) x b i
    rw [neg_one_mul, neg_neg]
    rfl
  rw [e, pairing_smul_left, pairing_comm, pairing_smul_left, pairing_self, sqNorm_smul] at h1
  refine h1.trans (le_of_eq ?_)
  ring

/-- **C102 (descent).** Let the total energy have a gradient with Lipschitz constant `L`. On every increasing grid that
`odeint` accepts with gaps `h` such that `L h ≤ 2`, integrating the GNF with `euler` never increases the energy from a
returned state to the next; over a gap `h` it decreases by at least `h (1 - L h / 2) ‖F(x)‖²`. -/
theorem C102_descent (energy : RowBatch B d → O → ℝ) (he : Differentiable ℝ (fun y => ∑ o, energy y o)) (L : ℝ) (hL0 : 0 ≤ L)
    (hL : GradLipschitz (fun y => ∑ o, energy y o) L) (x : RowBatch B d) (t0 t1 : ℝ) (rest : List ℝ)
    (hinc : (t0 :: t1 :: rest).Pairwise (· < ·)) (hsep : Separated (t0 :: t1 :: rest))
    (hgap : ∀ (k : ℕ) (t t' : ℝ), (t0 :: t1 :: rest)[k]? = some t → (t0 :: t1 :: rest)[k + 1]? = some t' → L * (t' - t) ≤ 2)
    (args : A) :
    ∃ sol, odeintFixed (pureField fun _ => gnfForward energy) x (t0 :: t1 :: rest)
        (eulerSolver (Except PyErr) ℝ (RowBatch B d) A) [] args = .ok (t0 :: t1 :: rest, sol) ∧
      sol.length = (t0 :: t1 :: rest).length ∧
      ∀ (k : ℕ) (t t' : ℝ) (y y' : RowBatch B d), (t0 :: t1 :: rest)[k]? = some t → (t0 :: t1 :: rest)[k + 1]? = some t' →
        sol[k]? = some y → sol[k + 1]? = some y' →
        ∑ o, energy y' o ≤ ∑ o, energy y o - (t' - t) * (1 - L * (t' - t) / 2) * sqNorm (gnfForward energy y) ∧
        ∑ o, energy y' o ≤ ∑ o, energy y o := by
  obtain ⟨sol, hrun, ht⟩ := C12_trajectory (euler_steppedBy (fun _ : ℝ => gnfForward energy) args) x t0 t1 rest
    ((List.pairwise_cons.1 hinc).1 t1 (by simp)).le hsep
  refine ⟨sol, hrun, ht.length_eq, fun k t t' y y' h1 h2 h3 h4 => ?_⟩
  have h5 := ht.next k t t' y h1 h2 h3
  rw [h4, Option.some.injEq] at h5
  subst h5
  have h6 := gnf_step he hL0 hL y (t' - t)
  refine ⟨h6, h6.trans ?_⟩
  have hlt : t < t' := by
    obtain ⟨hk, rfl⟩ := List.getElem?_eq_some_iff.1 h1
    obtain ⟨hk', rfl⟩ := List.getElem?_eq_some_iff.1 h2
    exact List.pairwise_iff_getElem.1 hinc k (k + 1) hk hk' (Nat.lt_succ_self k)
  have h7 := hgap k t t' h1 h2
  have : 0 ≤ (t' - t) * (1 - L * (t' - t) / 2) * sqNorm (gnfForward energy y) :=
    mul_nonneg (mul_nonneg (by linarith) (by linarith)) (sqNorm_nonneg _)
  linarith

/-- **C102 (rate for convex energies).** If moreover the total energy is convex and the gaps satisfy `L h ≤ 1`, then at each
returned time `t` the energy exceeds the one of any state `z`, in particular the least one, by at most
`‖x - z‖² / (2 (t - t0))`. -/
theorem C102_convex_rate (energy : RowBatch B d → O → ℝ) (he : Differentiable ℝ (fun y => ∑ o, energy y o)) (L : ℝ) (hL0 : 0 ≤ L)
    (hL : GradLipschitz (fun y => ∑ o, energy y o) L) (hconv : ConvexOn ℝ Set.univ (fun y => ∑ o, energy y o))
    (x z : RowBatch B d) (t0 t1 : ℝ) (rest : List ℝ)
    (hinc : (t0 :: t1 :: rest).Pairwise (· < ·)) (hsep : Separated (t0 :: t1 :: rest))
    (hgap : ∀ (k : ℕ) (t t' : ℝ), (t0 :: t1 :: rest)[k]? = some t → (t0 :: t1 :: rest)[k + 1]? = some t' → L * (t' - t) ≤ 1)
    (args : A) :
    ∃ sol, odeintFixed (pureField fun _ => gnfForward energy) x (t0 :: t1 :: rest)
        (eulerSolver (Except PyErr) ℝ (RowBatch B d) A) [] args = .ok (t0 :: t1 :: rest, sol) ∧
      sol.length = (t0 :: t1 :: rest).length ∧
      ∀ (k : ℕ) (t : ℝ) (y : RowBatch B d), (t0 :: t1 :: rest)[k]? = some t → sol[k]? = some y →
        2 * (t - t0) * (∑ o, energy y o - ∑ o, energy z o) ≤ sqNorm (x - z) := by
  obtain ⟨sol, hrun, ht⟩ := C12_trajectory (euler_steppedBy (fun _ : ℝ => gnfForward energy) args) x t0 t1 rest
    ((List.pairwise_cons.1 hinc).1 t1 (by simp)).le hsep
  refine ⟨sol, hrun, ht.length_eq, ?_⟩
  have key : ∀ (k : ℕ) (t : ℝ) (y : RowBatch B d), (t0 :: t1 :: rest)[k]? = some t → sol[k]? = some y →
      t0 ≤ t ∧ 2 * (t - t0) * (∑ o, energy y o - ∑ o, energy z o) + sqNorm (y - z) ≤ sqNorm (x - z) := by
    intro k
    induction k with
    | zero =>
      intro t y h1 h2
      rw [ht.start] at h2
      simp only [List.getElem?_cons_zero, Option.some.injEq] at h1 h2
      subst h1 h2
      simp
    | succ k ih =>
      intro t' y' h1 h2
      have hk : k + 1 < (t0 :: t1 :: rest).length := (List.getElem?_eq_some_iff.1 h1).1
      obtain ⟨t, h3⟩ : ∃ t, (t0 :: t1 :: rest)[k]? = some t := ⟨_, List.getElem?_eq_getElem (by omega)⟩
      obtain ⟨y, h4⟩ : ∃ y, sol[k]? = some y := ⟨_, List.getElem?_eq_getElem (by rw [ht.length_eq]; omega)⟩
      obtain ⟨h0, ih⟩ := ih t y h3 h4
      have h5 := ht.next k t t' y h3 h1 h4
      rw [h2, Option.some.injEq] at h5
      have hlt : t < t' := by
        obtain ⟨hk, rfl⟩ := List.getElem?_eq_some_iff.1 h3
        obtain ⟨hk', rfl⟩ := List.getElem?_eq_some_iff.1 h1
        exact List.pairwise_iff_getElem.1 hinc k (k + 1) hk hk' (Nat.lt_succ_self k)
      refine ⟨by linarith, ?_⟩
      set h := t' - t with hh
      have hpos : 0 < h := by rw [hh]; linarith
      have hLh := hgap k t t' h3 h1
      have h6 := gnf_step he hL0 hL y h
      rw [← h5] at h6
      set N := sqNorm (gnfForward energy y) with hN
      have hN0 : 0 ≤ N := sqNorm_nonneg _
      have e : autogradGrad (fun y => ∑ o, energy y o) y = (-1 : ℝ) • gnfForward energy y := by
        funext b i
        change _ = -1 * -autogradGrad (outputSum energy) y b i
        rw [neg_one_mul, neg_neg]
        rfl
      have h7 := convex_tangent he hconv y z
      rw [e, pairing_smul_left] at h7
      have h8 : sqNorm (y' - z) = sqNorm (y - z) + 2 * h * pairing (gnfForward energy y) (y - z) + h ^ 2 * N := by
        have : y' - z = (y - z) + h • gnfForward energy y := by rw [h5]; abel
        rw [this, sqNorm_add, sqNorm_smul, pairing_comm, pairing_smul_left]
        ring
      have h9 : pairing (gnfForward energy y) (z - y) = -pairing (gnfForward energy y) (y - z) := by
        rw [pairing_comm, pairing_comm (gnfForward energy y), pairing_sub_left, pairing_sub_left]
        ring
      rw [h9] at h7
      set P := pairing (gnfForward energy y) (y - z)
      have hdec : ∑ o, energy y' o ≤ ∑ o, energy y o - h / 2 * N := by
        have : h / 2 * N ≤ h * (1 - L * h / 2) * N := by
          refine mul_le_mul_of_nonneg_right ?_ hN0
          nlinarith
        linarith
      have hdec' : ∑ o, energy y' o ≤ ∑ o, energy y o := by
        have : 0 ≤ h / 2 * N := by positivity
        linarith
      have m1 : 2 * h * (∑ o, energy y' o - ∑ o, energy z o) ≤ 2 * h * (-P - h / 2 * N) :=
        mul_le_mul_of_nonneg_left (by linarith) (by positivity)
      have m2 : 2 * (t - t0) * (∑ o, energy y' o - ∑ o, energy z o) ≤ 2 * (t - t0) * (∑ o, energy y o - ∑ o, energy z o) :=
        mul_le_mul_of_nonneg_left (by linarith) (by linarith)
      rw [h8]
      have e3 : t' - t0 = (t - t0) + h := by rw [hh]; ring
      rw [e3]
      linarith
  intro k t y h1 h2
  have := (key k t y h1 h2).2
  linarith [sqNorm_nonneg (y - z)]

/-- The energy `½ ‖y‖²` of each sample. -/
noncomputable def quadEnergy (y : RowBatch B d) (b : B) : ℝ := ∑ i, y b i ^ 2 / 2

theorem quadEnergy_grad (x : RowBatch B d) : autogradGrad (fun y => ∑ b, quadEnergy y b) x = x := by
  funext b i
  have h : ∀ z : Fin d → ℝ, HasFDerivAt (fun z : Fin d → ℝ => ∑ i, z i ^ 2 / 2)
      (∑ i, z i • ContinuousLinearMap.proj (R := ℝ) (φ := fun _ : Fin d => ℝ) i) z := by
    intro z
    refine HasFDerivAt.fun_sum fun j _ => ?_
    have h1 := ((ContinuousLinearMap.proj (R := ℝ) (φ := fun _ : Fin d => ℝ) j).hasFDerivAt (x := z)).pow 2
    have h2 := h1.const_mul (2 : ℝ)⁻¹
    have e : ((2 : ℝ)⁻¹ • ((2 • z j ^ (2 - 1)) • ContinuousLinearMap.proj (R := ℝ) (φ := fun _ : Fin d => ℝ) j)) =
        z j • ContinuousLinearMap.proj (R := ℝ) (φ := fun _ : Fin d => ℝ) j := by
      rw [smul_smul]
      congr 1
      simp
    rw [← e]
    simpa [div_eq_inv_mul] using h2
  have h2 := autogradGrad_perSample (B := B) (fun z : Fin d → ℝ => ∑ i, z i ^ 2 / 2) (fun z => (h z).differentiableAt) x b i
  have e : (fun y : RowBatch B d => ∑ b, quadEnergy y b) = fun y => ∑ k, (fun z : Fin d → ℝ => ∑ i, z i ^ 2 / 2) (y k) := rfl
  rw [e, h2, (h (x b)).fderiv]
  simp [Finset.sum_apply, Pi.single_apply]

/-- Non-vacuity: the quadratic energy, with `L = 1`, on the grid `0, 1/2, 5/4`. -/
example (x : RowBatch (Fin 3) 2) : ∃ sol, odeintFixed (pureField fun _ => gnfForward quadEnergy) x [0, 1 / 2, 5 / 4]
    (eulerSolver (Except PyErr) ℝ (RowBatch (Fin 3) 2) Unit) [] () = .ok ([0, 1 / 2, 5 / 4], sol) ∧ sol.length = 3 ∧
    ∀ y, sol[2]? = some y → 2 * (5 / 4 - 0) * (∑ o, quadEnergy y o - ∑ o, quadEnergy (0 : RowBatch (Fin 3) 2) o) ≤
      sqNorm (x - 0) := by
  have hdiff : Differentiable ℝ (fun y : RowBatch (Fin 3) 2 => ∑ o, quadEnergy y o) := by
    unfold quadEnergy
    fun_prop
  have hconv : ConvexOn ℝ Set.univ (fun y : RowBatch (Fin 3) 2 => ∑ o, quadEnergy y o) := by
    refine ⟨convex_univ, fun u _ v _ a b ha hb hab => ?_⟩
    simp only [quadEnergy, smul_eq_mul, Finset.mul_sum, ← Finset.sum_add_distrib]
    refine Finset.sum_le_sum fun k _ => Finset.sum_le_sum fun i _ => ?_
    simp only [Pi.add_apply, Pi.smul_apply, smul_eq_mul]
    obtain rfl : b = 1 - a := by linarith
    nlinarith [mul_nonneg (mul_nonneg ha hb) (sq_nonneg (u k i - v k i))]
  obtain ⟨sol, h1, h2, h3⟩ := C102_convex_rate quadEnergy hdiff 1 zero_le_one
    (fun u v => by rw [quadEnergy_grad, quadEnergy_grad]; simp) hconv x 0 0 (1 / 2) [5 / 4]
    (by simp; norm_num) (by
      simp only [Separated, Close, List.pairwise_cons, List.mem_cons, List.not_mem_nil, or_false, forall_eq_or_imp, forall_eq,
        List.Pairwise.nil, and_true, IsEmpty.forall_iff, implies_true, not_le]
      norm_num [abs_of_pos, abs_of_neg]) (by
      intro k t t' h h'
      match k with
      | 0 => simp at h h'; subst h h'; norm_num
      | 1 => simp at h h'; subst h h'; norm_num
      | k + 2 => simp at h') ()
  exact ⟨sol, h1, h2, fun y hy => h3 2 (5 / 4) y rfl hy⟩

end Torchdyn
