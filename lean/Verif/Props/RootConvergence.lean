import Verif.Props.Root
import Verif.Proofs.Broyden
import Mathlib.Analysis.CStarAlgebra.Matrix
import Mathlib.Analysis.InnerProductSpace.Calculus

/-!
Property C101: local convergence of `root_find` on nonlinear residuals.
-/

set_option linter.unusedSectionVars false
set_option linter.unusedSimpArgs false

namespace Torchdyn

variable {β ι : Type} [Fintype β] [Fintype ι] [DecidableEq ι]

local notation "⟪" x ", " y "⟫" => inner ℝ x y

/-- The operator with the given entries. -/
noncomputable def toOp (J : ι → ι → ℝ) : EuclideanSpace ℝ ι →L[ℝ] EuclideanSpace ℝ ι :=
  Matrix.toEuclideanCLM (𝕜 := ℝ) (Matrix.of J)

/-- A row of a batch as a vector with the Euclidean norm. -/
def toVec (v : ι → ℝ) : EuclideanSpace ℝ ι := WithLp.toLp 2 v

theorem toOp_apply (J : ι → ι → ℝ) (x : EuclideanSpace ℝ ι) (i : ι) : toOp J x i = ∑ o, J i o * x o := rfl

theorem toVec_apply (v : ι → ℝ) (i : ι) : toVec v i = v i := rfl

theorem inner_eq (x y : EuclideanSpace ℝ ι) : ⟪x, y⟫ = ∑ i, x i * y i := by
  simp [PiLp.inner_apply, mul_comm]

theorem toOp_broydenFull (ε : ℝ) (Δg Δz : Batch β ι) (J : BatchMat β ι ι) (b : β) :
    toOp (broydenFullUpdate ε Δg Δz J b) = fullUpdate ε (toOp (J b)) (toVec (Δz b)) (toVec (Δg b)) := by
  ext x i
  rw [fullUpdate_apply]
  simp only [PiLp.add_apply, PiLp.smul_apply, PiLp.sub_apply, toOp_apply, toVec_apply, inner_eq, broydenFullUpdate,
    add_mul, Finset.sum_add_distrib, smul_eq_mul]
  congr 1
  have e1 : ∑ i, ∑ o, Δz b i * J b i o * Δg b o = ∑ i, Δz b i * ∑ o, J b i o * Δg b o := by
    refine Finset.sum_congr rfl fun i _ => ?_
    rw [Finset.mul_sum]
    exact Finset.sum_congr rfl fun o _ => by ring
  have e2 : ∑ i, Δz b i * ∑ o, J b i o * x o = ∑ o, (∑ i, Δz b i * J b i o) * x o := by
    simp only [Finset.mul_sum, Finset.sum_mul]
    rw [Finset.sum_comm]
    exact Finset.sum_congr rfl fun o _ => Finset.sum_congr rfl fun i _ => by ring
  rw [e1, e2, Finset.sum_div, Finset.sum_mul]
  refine Finset.sum_congr rfl fun o _ => ?_
  ring

theorem toOp_broydenBad (ε : ℝ) (Δg Δz : Batch β ι) (J : BatchMat β ι ι) (b : β) :
    toOp (broydenBadUpdate ε Δg Δz J b) = rankOneUpdate (toOp (J b)) (toVec (Δz b) - toOp (J b) (toVec (Δg b)))
      (toVec (Δg b)) (‖toVec (Δg b)‖ ^ 2 + ε) := by
  ext x i
  rw [rankOneUpdate_apply, ← real_inner_self_eq_norm_sq]
  simp only [PiLp.add_apply, PiLp.smul_apply, PiLp.sub_apply, toOp_apply, toVec_apply, inner_eq, broydenBadUpdate,
    add_mul, Finset.sum_add_distrib, smul_eq_mul]
  congr 1
  have e1 : ∑ o, Δg b o ^ 2 = ∑ o, Δg b o * Δg b o := Finset.sum_congr rfl fun o _ => by ring
  rw [e1, Finset.sum_div, Finset.sum_mul]
  refine Finset.sum_congr rfl fun o _ => ?_
  ring

/-- A property of iteration count, point and inverse Jacobian that the steps preserve holds at the end. -/
theorem rootLoop_invariant {ο : Type} [Fintype ο] {cfg : RootCfg} {method : RootMethod} {g : Batch β ι → Batch β ο} {fuel : ℕ}
    (hm : IsBroyden method) (hf : 7 ≤ fuel) (α : ℝ) (Inv : ℕ → Batch β ι → BatchMat β ι ο → Prop)
    (hstep : ∀ (n : ℕ) (z z' : Batch β ι) (J : BatchMat β ι ο), Inv n z J →
      z' = (fun b i => z b i - α * ∑ o, g z b o * J b i o) →
      Inv (n + 1) z' (updateOf method (fun b o => g z' b o - g z b o) (fun b i => z' b i - z b i) J)) (left : ℕ) :
    ∀ s : RootState β ι ο, s.alpha = α → s.geval = g s.z → s.terminated = false → Inv s.iteration s.z s.Jinv →
      ∃ s', rootLoop cfg method .none g fuel left s = .ok (some s') ∧ Inv s'.iteration s'.z s'.Jinv ∧
        (s'.terminated = false → s'.iteration = s.iteration + left) := by
  induction left with
  | zero => exact fun s _ _ _ h => ⟨s, rfl, h, fun _ => rfl⟩
  | succ left ih =>
    intro s e1 e2 e3 e4
    obtain ⟨s1, h1, h2, h3, h4, h5, h6, h7, h8, h9⟩ :=
      rootLoop_succ (cfg := cfg) (search := .none) (g := g) hm hf left s
    have ha : s1.alpha = α := by
      have : some s.alpha = some s1.alpha := h6
      rw [← Option.some.inj this, e1]
    have hinv : Inv s1.iteration s1.z s1.Jinv := by
      have := hstep s.iteration s.z s1.z s.Jinv e4 (by rw [h3, h2, e1, e2])
      rw [h1, h5, h4, e2]
      exact this
    rw [h9]
    by_cases ht : s1.terminated = true
    · rw [if_pos ht]
      exact ⟨s1, rfl, hinv, fun h => by rw [ht] at h; cases h⟩
    · rw [if_neg ht]
      obtain ⟨s', k1, k2, k3⟩ := ih s1 ha h4 (by simpa using ht) hinv
      exact ⟨s', k1, k2, fun h => by rw [k3 h, h1]; omega⟩

/-- The invariant behind the local convergence: a condition on the row and its inverse Jacobian that holds at the start and
is kept by every step, and under which a step contracts the distance to the root. -/
theorem local_invariant {g : Batch β ι → Batch β ι} (b : β) {G : EuclideanSpace ℝ ι → EuclideanSpace ℝ ι}
    {G' : EuclideanSpace ℝ ι → EuclideanSpace ℝ ι →L[ℝ] EuclideanSpace ℝ ι} {A : EuclideanSpace ℝ ι →L[ℝ] EuclideanSpace ℝ ι}
    {zs : EuclideanSpace ℝ ι} {ρ γ α : ℝ} (hρ : 0 < ρ) (hγ : 0 ≤ γ) (hroot : RegularRoot G G' A zs ρ γ)
    (hg : ∀ z, toVec (g z b) = G (toVec (z b))) (hα0 : 0 < α) (hα1 : α ≤ 1) :
    ∃ δ, 0 < δ ∧ δ ≤ ρ ∧ ‖A‖ * (γ * δ) ≤ 1 / 4 ∧ ∀ p : RootMethod, IsBroyden p →
      ∀ (J0 : BatchMat β ι ι) (z : Batch β ι), ‖toVec (z b) - zs‖ ≤ δ → (∀ x, toOp (J0 b) (G' (toVec (z b)) x) = x) →
      ∃ Inv : ℕ → (ι → ℝ) → (ι → ι → ℝ) → Prop, Inv 0 (z b) (J0 b) ∧
        ∀ (n : ℕ) (y y' : Batch β ι) (J : BatchMat β ι ι), Inv n (y b) (J b) →
          y' = (fun b i => y b i - α * ∑ o, g y b o * J b i o) →
          Inv (n + 1) (y' b) (updateOf p (fun b o => g y' b o - g y b o) (fun b i => y' b i - y b i) J b) ∧
            ‖toVec (y b) - zs‖ ≤ δ ∧ ‖toVec (y' b) - zs‖ ≤ (1 - α / 2) * ‖toVec (y b) - zs‖ := by
  set a := ‖A‖ with ha
  set c := ‖G' zs‖ with hc
  have ha0 : 0 ≤ a := norm_nonneg _
  have hc0 : 0 ≤ c := norm_nonneg _
  set C := a * γ * (2 + 2 / α) + a ^ 2 * γ * (4 / 3 + 4 / α) * (c + γ) with hC
  have hC0 : 0 ≤ C := by positivity
  set δ := min (min ρ 1) (1 / (4 * (C + 1))) with hδ
  have hδ0 : 0 < δ := by positivity
  have hδρ : δ ≤ ρ := (min_le_left _ _).trans (min_le_left _ _)
  have hδ1 : δ ≤ 1 := (min_le_left _ _).trans (min_le_right _ _)
  have hδC : C * δ ≤ 1 / 4 := by
    have h1 : δ ≤ 1 / (4 * (C + 1)) := min_le_right _ _
    have h2 : C * δ ≤ C * (1 / (4 * (C + 1))) := mul_le_mul_of_nonneg_left h1 hC0
    refine h2.trans ?_
    rw [mul_one_div, div_le_div_iff₀ (by positivity) (by norm_num)]
    linarith
  have hδ2 : a * γ * (2 + 2 / α) * δ ≤ 1 / 4 := by
    refine le_trans (mul_le_mul_of_nonneg_right ?_ hδ0.le) hδC
    rw [hC]
    have : 0 ≤ a ^ 2 * γ * (4 / 3 + 4 / α) * (c + γ) := by positivity
    linarith
  have hδ3 : a ^ 2 * γ * (4 / 3 + 4 / α) * (c + γ) * δ ≤ 1 / 4 := by
    refine le_trans (mul_le_mul_of_nonneg_right ?_ hδ0.le) hδC
    rw [hC]
    have : 0 ≤ a * γ * (2 + 2 / α) := by positivity
    linarith
  set q := 1 - α / 2 with hq
  have hq0 : 0 ≤ q := by rw [hq]; linarith
  have hq1 : q ≤ 1 := by rw [hq]; linarith
  have hqs : (1 - q) * (2 / α) = 1 := by rw [hq]; field_simp; ring
  have hm0 : a * (γ * δ) ≤ 1 / 4 := by
    refine le_trans ?_ hδ2
    have : 0 ≤ a * γ * δ * (1 + 2 / α) := by positivity
    nlinarith
  refine ⟨δ, hδ0, hδρ, hm0, ?_⟩
  intro p hmethod J0 z hz hJ0
  set e0 := ‖toVec (z b) - zs‖ with he0
  have he00 : 0 ≤ e0 := norm_nonneg _
  -- the initial inverse Jacobian
  have hBJ0 : ∀ x, G' (toVec (z b)) (toOp (J0 b) x) = x := by
    have hinj : Function.Injective (G' (toVec (z b))) := Function.LeftInverse.injective hJ0
    have hsurj : Function.Surjective (G' (toVec (z b))) :=
      LinearMap.surjective_of_injective (f := (G' (toVec (z b)) : EuclideanSpace ℝ ι →ₗ[ℝ] EuclideanSpace ℝ ι)) hinj
    exact Function.LeftInverse.rightInverse_of_surjective hJ0 hsurj
  have hB0 : ‖G' (toVec (z b)) - G' zs‖ ≤ γ * e0 :=
    hroot.lip _ (by rw [Metric.mem_closedBall, dist_eq_norm]; exact hz.trans hδρ)
  -- the new row
  have hrow : ∀ (z z' : Batch β ι) (J : BatchMat β ι ι), z' = (fun b i => z b i - α * ∑ o, g z b o * J b i o) →
      toVec (z' b) = toVec (z b) - α • toOp (J b) (G (toVec (z b))) := by
    intro z z' J h
    ext i
    rw [← hg, PiLp.sub_apply, PiLp.smul_apply, toOp_apply, h]
    simp only [toVec_apply, smul_eq_mul, mul_comm (J b i _)]
  have hvg : ∀ z z' : Batch β ι, toVec (fun o => g z' b o - g z b o) = G (toVec (z' b)) - G (toVec (z b)) := by
    intro z z'
    rw [← hg, ← hg]
    rfl
  have hvz : ∀ z z' : Batch β ι, toVec (fun i => z' b i - z b i) = toVec (z' b) - toVec (z b) := fun z z' => rfl
  have hgeom : ∀ n : ℕ, (1 - q ^ n) * (2 / α) + q ^ n = (1 - q ^ (n + 1)) * (2 / α) := by
    intro n
    have : q ^ n = q ^ n * ((1 - q) * (2 / α)) := by rw [hqs, mul_one]
    rw [pow_succ]
    linear_combination this
  have hsum : ∀ n : ℕ, (1 - q ^ n) * (2 / α) ≤ 2 / α := fun n =>
    mul_le_of_le_one_left (by positivity) (by linarith [pow_nonneg hq0 n])
  have hsum0 : ∀ n : ℕ, 0 ≤ (1 - q ^ n) * (2 / α) := fun n =>
    mul_nonneg (by linarith [pow_le_one₀ (n := n) hq0 hq1]) (by positivity)
  have hdec : ∀ n : ℕ, q ^ n * e0 ≤ e0 := fun n => mul_le_of_le_one_left he00 (pow_le_one₀ hq0 hq1)
  -- the two methods
  rcases hmethod with rfl | rfl
  · refine ⟨fun n x J => ∃ B : EuclideanSpace ℝ ι →L[ℝ] EuclideanSpace ℝ ι, (∀ y, toOp J (B y) = y) ∧
        (∀ y, B (toOp J y) = y) ∧ ‖B - G' zs‖ ≤ γ * e0 + γ * e0 * ((1 - q ^ n) * (2 / α)) ∧
        ‖toVec x - zs‖ ≤ q ^ n * e0, ⟨G' (toVec (z b)), hJ0, hBJ0, by simpa using hB0, by simp [he0]⟩, ?_⟩
    · rintro n z z' J ⟨B, k1, k2, k3, k4⟩ hz'
      have hk : ‖toVec (z b) - zs‖ ≤ δ := (k4.trans (hdec n)).trans hz
      have hsmall : ‖A‖ * (‖B - G' zs‖ + γ * ‖toVec (z b) - zs‖) ≤ 1 / 4 := by
        refine le_trans ?_ hδ2
        have j1 : γ * ‖toVec (z b) - zs‖ ≤ γ * δ := mul_le_mul_of_nonneg_left hk hγ
        have j2 : γ * e0 ≤ γ * δ := mul_le_mul_of_nonneg_left hz hγ
        have j3 : γ * e0 * ((1 - q ^ n) * (2 / α)) ≤ γ * δ * (2 / α) :=
          mul_le_mul j2 (hsum n) (hsum0 n) (by positivity)
        calc ‖A‖ * (‖B - G' zs‖ + γ * ‖toVec (z b) - zs‖) ≤ a * (γ * δ * (2 + 2 / α)) :=
              mul_le_mul_of_nonneg_left (by linarith) ha0
          _ = a * γ * (2 + 2 / α) * δ := by ring
      obtain ⟨l1, B', l2, l3, l4⟩ := full_step hroot hγ (ε := 1 / 10 ^ 6) (by norm_num) hα0.le hα1 k1 k2 (hk.trans hδρ) hsmall
        (hrow z z' J hz')
      have hop : toOp (updateOf .broyden (fun b o => g z' b o - g z b o) (fun b i => z' b i - z b i) J b) =
          fullUpdate (1 / 10 ^ 6) (toOp (J b)) (toVec (z' b) - toVec (z b)) (G (toVec (z' b)) - G (toVec (z b))) := by
        rw [← hvg, ← hvz]
        exact toOp_broydenFull (1 / 10 ^ 6) (fun b o => g z' b o - g z b o) (fun b i => z' b i - z b i) J b
      refine ⟨⟨B', ?_, ?_, ?_, ?_⟩, hk, l1⟩
      · intro x
        rw [hop, l2]
      · intro x
        rw [hop, l3]
      · refine l4.trans ?_
        have j1 := mul_le_mul_of_nonneg_left k4 hγ
        have j2 : γ * e0 * ((1 - q ^ (n + 1)) * (2 / α)) = γ * e0 * ((1 - q ^ n) * (2 / α)) + γ * (q ^ n * e0) := by
          rw [← hgeom n]
          ring
        linarith
      · rw [← hq] at l1
        refine l1.trans ?_
        rw [pow_succ]
        have := mul_le_mul_of_nonneg_left k4 hq0
        linarith
  · have hJA0 : ‖toOp (J0 b) - A‖ ≤ 4 / 3 * a ^ 2 * γ * e0 := by
      refine ContinuousLinearMap.opNorm_le_bound _ (by positivity) fun x => ?_
      have e1 : (toOp (J0 b) - A) x = -A ((G' (toVec (z b)) - G' zs) (toOp (J0 b) x)) := by
        rw [sub_apply, sub_apply, map_sub, hBJ0, hroot.left_inv]
        abel
      rw [e1, norm_neg]
      have j1 := inverse_bound hroot hBJ0 (by
        refine le_trans (mul_le_mul_of_nonneg_left (hB0.trans (mul_le_mul_of_nonneg_left hz hγ)) ha0) hm0) x
      calc ‖A ((G' (toVec (z b)) - G' zs) (toOp (J0 b) x))‖ ≤ a * ((γ * e0) * (4 / 3 * a * ‖x‖)) := by
            refine (A.le_opNorm _).trans (mul_le_mul_of_nonneg_left ?_ ha0)
            exact (ContinuousLinearMap.le_opNorm _ _).trans (mul_le_mul hB0 j1 (norm_nonneg _) (by positivity))
        _ = 4 / 3 * a ^ 2 * γ * e0 * ‖x‖ := by ring
    refine ⟨fun n x J => ‖toOp J - A‖ ≤ 4 / 3 * a ^ 2 * γ * e0 + 2 * a ^ 2 * γ * e0 * ((1 - q ^ n) * (2 / α)) ∧
        ‖toVec x - zs‖ ≤ q ^ n * e0, ⟨by simpa using hJA0, by simp [he0]⟩, ?_⟩
    · rintro n z z' J ⟨k3, k4⟩ hz'
      have hk : ‖toVec (z b) - zs‖ ≤ δ := (k4.trans (hdec n)).trans hz
      have hγk : γ * ‖toVec (z b) - zs‖ ≤ γ * δ := mul_le_mul_of_nonneg_left hk hγ
      have hs1 : ‖A‖ * (γ * ‖toVec (z b) - zs‖) ≤ 1 / 4 := (mul_le_mul_of_nonneg_left hγk ha0).trans hm0
      have hs2 : ‖toOp (J b) - A‖ * (‖G' zs‖ + γ * ‖toVec (z b) - zs‖) ≤ 1 / 4 := by
        refine le_trans ?_ hδ3
        have j2 : a ^ 2 * γ * e0 ≤ a ^ 2 * γ * δ := mul_le_mul_of_nonneg_left hz (by positivity)
        have j3 : 2 * a ^ 2 * γ * e0 * ((1 - q ^ n) * (2 / α)) ≤ 2 * (a ^ 2 * γ * δ) * (2 / α) :=
          mul_le_mul (by linarith) (hsum n) (hsum0 n) (by positivity)
        have j4 : ‖toOp (J b) - A‖ ≤ a ^ 2 * γ * (4 / 3 + 4 / α) * δ := by
          refine k3.trans ?_
          have : a ^ 2 * γ * (4 / 3 + 4 / α) * δ = 4 / 3 * (a ^ 2 * γ * δ) + 2 * (a ^ 2 * γ * δ) * (2 / α) := by ring
          rw [this]
          linarith
        have j5 : ‖G' zs‖ + γ * ‖toVec (z b) - zs‖ ≤ c + γ := by
          have : γ * δ ≤ γ * 1 := mul_le_mul_of_nonneg_left hδ1 hγ
          linarith
        calc ‖toOp (J b) - A‖ * (‖G' zs‖ + γ * ‖toVec (z b) - zs‖)
              ≤ (a ^ 2 * γ * (4 / 3 + 4 / α) * δ) * (c + γ) := mul_le_mul j4 j5 (by positivity) (by positivity)
          _ = a ^ 2 * γ * (4 / 3 + 4 / α) * (c + γ) * δ := by ring
      obtain ⟨l1, l2⟩ := bad_step hroot hγ (ε := 1 / 10 ^ 6) (by norm_num) hα0.le hα1 (hk.trans hδρ) hs1 hs2 (hrow z z' J hz')
      have hop : toOp (updateOf .broydenFast (fun b o => g z' b o - g z b o) (fun b i => z' b i - z b i) J b) =
          rankOneUpdate (toOp (J b)) ((toVec (z' b) - toVec (z b)) - toOp (J b) (G (toVec (z' b)) - G (toVec (z b))))
            (G (toVec (z' b)) - G (toVec (z b))) (‖G (toVec (z' b)) - G (toVec (z b))‖ ^ 2 + 1 / 10 ^ 6) := by
        rw [← hvg, ← hvz]
        exact toOp_broydenBad (1 / 10 ^ 6) (fun b o => g z' b o - g z b o) (fun b i => z' b i - z b i) J b
      refine ⟨⟨?_, ?_⟩, hk, l1⟩
      · rw [hop]
        refine l2.trans ?_
        have j1 : 2 * a ^ 2 * γ * ‖toVec (z b) - zs‖ ≤ 2 * a ^ 2 * γ * (q ^ n * e0) :=
          mul_le_mul_of_nonneg_left k4 (by positivity)
        have j2 : 2 * a ^ 2 * γ * e0 * ((1 - q ^ (n + 1)) * (2 / α)) =
            2 * a ^ 2 * γ * e0 * ((1 - q ^ n) * (2 / α)) + 2 * a ^ 2 * γ * (q ^ n * e0) := by
          rw [← hgeom n]
          ring
        linarith
      · rw [← hq] at l1
        refine l1.trans ?_
        rw [pow_succ]
        have := mul_le_mul_of_nonneg_left k4 hq0
        linarith

/-- **C101.** `root_find` without line search converges locally with both methods: if the residual of a sample acts on that
sample alone and has a root with invertible derivative there, then from every starting point close enough to the root,
with the inverse of the Jacobian at the starting point, `n` iterations reduce the distance to the root by at least
`(1 - α/2)^n`. Nothing is assumed about the other samples of the batch. -/
theorem C101_local_convergence {g : Batch β ι → Batch β ι} (b : β) {G : EuclideanSpace ℝ ι → EuclideanSpace ℝ ι}
    {G' : EuclideanSpace ℝ ι → EuclideanSpace ℝ ι →L[ℝ] EuclideanSpace ℝ ι} {A : EuclideanSpace ℝ ι →L[ℝ] EuclideanSpace ℝ ι}
    {zs : EuclideanSpace ℝ ι} {ρ γ α : ℝ} (hρ : 0 < ρ) (hγ : 0 ≤ γ) (hroot : RegularRoot G G' A zs ρ γ)
    (hg : ∀ z, toVec (g z b) = G (toVec (z b))) (hα0 : 0 < α) (hα1 : α ≤ 1) :
    ∃ δ, 0 < δ ∧ ∀ (cfg : RootCfg) (method : String), method = "broyden" ∨ method = "broyden_fast" →
      ∀ (J0 : BatchMat β ι ι) (z : Batch β ι) (fuel : ℕ), 7 ≤ fuel → ‖toVec (z b) - zs‖ ≤ δ →
      (∀ x, toOp (J0 b) (G' (toVec (z b)) x) = x) →
      ∃ s, rootFind cfg method "none" g J0 z α fuel = .ok (some s) ∧
        (s.terminated = false → s.iteration = cfg.maxiters + 1) ∧
        ‖toVec (s.z b) - zs‖ ≤ (1 - α / 2) ^ s.iteration * ‖toVec (z b) - zs‖ := by
  obtain ⟨δ, hδ, _, _, H⟩ := local_invariant (β := β) b hρ hγ hroot hg hα0 hα1
  refine ⟨δ, hδ, ?_⟩
  intro cfg method hmethod J0 z fuel hf hz hJ0
  obtain ⟨p, hp, hb⟩ : ∃ p, (method, p) ∈ rootSolverDict ∧ IsBroyden p := by
    rcases hmethod with rfl | rfl
    · exact ⟨.broyden, by simp [rootSolverDict], Or.inl rfl⟩
    · exact ⟨.broydenFast, by simp [rootSolverDict], Or.inr rfl⟩
  obtain ⟨Inv, i0, istep⟩ := H p hb J0 z hz hJ0
  rw [rootFind_names hp (q := .none) (by simp [searchMethods])]
  obtain ⟨s, h1, ⟨_, h2⟩, h3⟩ := rootLoop_invariant (cfg := cfg) (method := p) (g := g) hb hf α
    (fun n y J => Inv n (y b) (J b) ∧ ‖toVec (y b) - zs‖ ≤ (1 - α / 2) ^ n * ‖toVec (z b) - zs‖)
    (by
      rintro n y y' J ⟨k1, k2⟩ hy'
      obtain ⟨l1, _, l3⟩ := istep n y y' J k1 hy'
      refine ⟨l1, l3.trans ?_⟩
      rw [pow_succ]
      have := mul_le_mul_of_nonneg_left k2 (by linarith : (0 : ℝ) ≤ 1 - α / 2)
      linarith)
    (cfg.maxiters + 1) ⟨0, z, fun _ _ => 0, g z, J0, α, none, false⟩ rfl rfl rfl ⟨i0, by simp⟩
  exact ⟨s, h1, by simpa using h3, h2⟩

/-- Close enough to a regular root the Jacobian is invertible, so that its pseudo-inverse is an inverse. -/
theorem exists_inverse_near {G : EuclideanSpace ℝ ι → EuclideanSpace ℝ ι}
    {G' : EuclideanSpace ℝ ι → EuclideanSpace ℝ ι →L[ℝ] EuclideanSpace ℝ ι} {A : EuclideanSpace ℝ ι →L[ℝ] EuclideanSpace ℝ ι}
    {zs : EuclideanSpace ℝ ι} {ρ γ : ℝ} (hroot : RegularRoot G G' A zs ρ γ) {z : EuclideanSpace ℝ ι} (hz : ‖z - zs‖ ≤ ρ)
    (hs : ‖A‖ * (γ * ‖z - zs‖) < 1) : ∃ J : ι → ι → ℝ, ∀ x, toOp J (G' z x) = x := by
  have hinj : Function.Injective (G' z : EuclideanSpace ℝ ι →ₗ[ℝ] EuclideanSpace ℝ ι) := by
    rw [injective_iff_map_eq_zero]
    intro x hx
    have hx' : G' z x = 0 := hx
    by_contra hne
    have hpos : 0 < ‖x‖ := norm_pos_iff.2 hne
    have e : x = -A ((G' z - G' zs) x) := by
      rw [sub_apply, map_sub, hx', hroot.left_inv]
      simp
    have h1 : ‖x‖ ≤ ‖A‖ * (γ * ‖z - zs‖ * ‖x‖) := by
      nth_rw 1 [e]
      rw [norm_neg]
      refine (A.le_opNorm _).trans (mul_le_mul_of_nonneg_left ?_ (norm_nonneg _))
      exact ((G' z - G' zs).le_opNorm x).trans (mul_le_mul_of_nonneg_right
        (hroot.lip z (by rwa [Metric.mem_closedBall, dist_eq_norm])) (norm_nonneg _))
    have h2 := mul_lt_mul_of_pos_right hs hpos
    linarith
  set T := LinearEquiv.ofInjectiveEndo _ hinj with hT
  refine ⟨(Matrix.toEuclideanCLM (𝕜 := ℝ)).symm (LinearMap.toContinuousLinearMap T.symm.toLinearMap), fun x => ?_⟩
  have e : toOp ((Matrix.toEuclideanCLM (𝕜 := ℝ)).symm (LinearMap.toContinuousLinearMap T.symm.toLinearMap)) =
      LinearMap.toContinuousLinearMap T.symm.toLinearMap :=
    (Matrix.toEuclideanCLM (n := ι) (𝕜 := ℝ)).apply_symm_apply _
  rw [e]
  exact T.symm_apply_apply x

/-- The residual `x + ‖x‖² w` of the example. -/
noncomputable def quadResidual (w x : EuclideanSpace ℝ ι) : EuclideanSpace ℝ ι := x + ‖x‖ ^ 2 • w

/-- Its derivative. -/
noncomputable def quadDeriv (w x : EuclideanSpace ℝ ι) : EuclideanSpace ℝ ι →L[ℝ] EuclideanSpace ℝ ι :=
  ContinuousLinearMap.id ℝ _ + (2 • innerSL ℝ x).smulRight w

theorem quadratic_regularRoot (w : EuclideanSpace ℝ ι) :
    RegularRoot (quadResidual w) (quadDeriv w) (ContinuousLinearMap.id ℝ _) 0 1 (2 * ‖w‖) := by
  unfold quadResidual quadDeriv
  refine ⟨by simp, fun z _ => ?_, fun z _ => ?_, fun x => by simp, fun x => by simp⟩
  · exact (hasFDerivAt_id z).add (((hasStrictFDerivAt_norm_sq z).hasFDerivAt).smul_const w)
  · refine ContinuousLinearMap.opNorm_le_bound _ (by positivity) fun x => ?_
    have e : ((ContinuousLinearMap.id ℝ (EuclideanSpace ℝ ι) + (2 • innerSL ℝ z).smulRight w) -
        (ContinuousLinearMap.id ℝ (EuclideanSpace ℝ ι) + (2 • innerSL ℝ (0 : EuclideanSpace ℝ ι)).smulRight w)) x =
        (2 * ⟪z, x⟫) • w := by
      simp
    rw [e, norm_smul, norm_mul, Real.norm_eq_abs, Real.norm_eq_abs, abs_two, sub_zero]
    have := abs_real_inner_le_norm z x
    nlinarith [mul_le_mul_of_nonneg_right this (norm_nonneg w)]

/-- Non-vacuity: a coupled quadratic residual in two dimensions for all samples of a batch, with the default `alpha`. There
are starting points other than the root at which the hypotheses hold. -/
example : ∃ δ > 0, ∀ z : Batch β (Fin 2), (∀ b, ‖toVec (z b)‖ ≤ δ) → ∃ J0 : BatchMat β (Fin 2) (Fin 2),
    ∀ (b : β) (cfg : RootCfg), ∃ s, rootFind cfg "broyden" "none" (fun z b i => z b i + (z b 0 ^ 2 + z b 1 ^ 2)) J0 z (1 / 10) 7 =
      .ok (some s) ∧ ‖toVec (s.z b)‖ ≤ (19 / 20) ^ s.iteration * ‖toVec (z b)‖ := by
  set w : EuclideanSpace ℝ (Fin 2) := toVec fun _ => 1 with hw
  have hg : ∀ (b : β) (z : Batch β (Fin 2)), toVec ((fun (z : Batch β (Fin 2)) b i => z b i + (z b 0 ^ 2 + z b 1 ^ 2)) z b) =
      quadResidual w (toVec (z b)) := by
    intro b z
    ext i
    simp [quadResidual, toVec, hw, EuclideanSpace.norm_sq_eq]
  by_cases hβ : Nonempty β
  · obtain ⟨b0⟩ := hβ
    have H := fun b => C101_local_convergence (β := β)
      (g := fun z b i => z b i + (z b 0 ^ 2 + z b 1 ^ 2)) b one_pos (by positivity) (quadratic_regularRoot w) (hg b)
      (α := 1 / 10) (by norm_num) (by norm_num)
    choose δ hδ hrun using H
    have hne : (Finset.univ : Finset β).Nonempty := ⟨b0, Finset.mem_univ _⟩
    refine ⟨min (Finset.univ.inf' hne δ) (min 1 (1 / (4 * (‖w‖ + 1)))), ?_, fun z hz => ?_⟩
    · refine lt_min ?_ (by positivity)
      rw [Finset.lt_inf'_iff]
      exact fun b _ => hδ b
    · have hb : ∀ b, ∃ J : Fin 2 → Fin 2 → ℝ, ∀ x, toOp J (quadDeriv w (toVec (z b)) x) = x := by
        intro b
        have h1 : ‖toVec (z b)‖ ≤ 1 := (hz b).trans ((min_le_right _ _).trans (min_le_left _ _))
        have h2 : ‖toVec (z b)‖ ≤ 1 / (4 * (‖w‖ + 1)) := (hz b).trans ((min_le_right _ _).trans (min_le_right _ _))
        refine exists_inverse_near (quadratic_regularRoot w) (by simpa using h1) ?_
        have h3 : ‖ContinuousLinearMap.id ℝ (EuclideanSpace ℝ (Fin 2))‖ ≤ 1 := ContinuousLinearMap.norm_id_le
        have h4 : 2 * ‖w‖ * ‖toVec (z b) - 0‖ ≤ 1 / 2 := by
          rw [sub_zero]
          calc 2 * ‖w‖ * ‖toVec (z b)‖ ≤ 2 * ‖w‖ * (1 / (4 * (‖w‖ + 1))) := mul_le_mul_of_nonneg_left h2 (by positivity)
            _ ≤ 1 / 2 := by
              rw [mul_one_div, div_le_div_iff₀ (by positivity) (by norm_num)]
              linarith
        have h5 := mul_le_mul h3 h4 (by positivity) zero_le_one
        linarith
      choose J0 hJ0 using hb
      refine ⟨J0, fun b cfg => ?_⟩
      obtain ⟨s, h1, _, h3⟩ := hrun b cfg "broyden" (Or.inl rfl) J0 z 7 le_rfl
        (by rw [sub_zero]; exact (hz b).trans ((min_le_left _ _).trans (Finset.inf'_le _ (Finset.mem_univ b)))) (hJ0 b)
      refine ⟨s, h1, ?_⟩
      rw [sub_zero, sub_zero] at h3
      norm_num at h3 ⊢
      exact h3
  · exact ⟨1, one_pos, fun z _ => ⟨fun _ _ _ => 0, fun b => absurd ⟨b⟩ hβ⟩⟩

end Torchdyn
