import Verif.Spec.Grid
import Mathlib.Analysis.Calculus.MeanValue
import Mathlib.Analysis.SpecialFunctions.Exp
import Mathlib.Analysis.Calculus.Deriv.Pow
import Mathlib.Analysis.Calculus.Deriv.Add
import Mathlib.Analysis.Calculus.Deriv.Mul
import Mathlib.Tactic.Linarith
import Mathlib.Tactic.Positivity
import Mathlib.Tactic.Ring

/-! Global error of one-step methods (discrete Grönwall) and the local error of Euler's method. -/

namespace Torchdyn

open Spec Set

variable {V : Type} [NormedAddCommGroup V] [NormedSpace ℝ V]

/-- Discrete Grönwall: a one-step method with Lipschitz increments (`1 + L h`) and local error at most
`δ h` per step of size `h` has global error at most `δ (t - t0) exp(L (t - t0))`. -/
theorem global_error_bound {φ : V → ℝ → ℝ → V} {y : ℝ → V} {L δ : ℝ} (hL : 0 ≤ L) (hδ : 0 ≤ δ)
    {t0 T : ℝ} {rest : List ℝ} {sol : List V}
    (hmono : (t0 :: rest).Pairwise (· ≤ ·)) (hT : ∀ t ∈ t0 :: rest, t ≤ T)
    (hstab : ∀ t t', t0 ≤ t → t ≤ t' → t' ≤ T →
      (∃ k, (t0 :: rest)[k]? = some t ∧ (t0 :: rest)[k + 1]? = some t') → ∀ x x' : V,
      ‖φ x t (t' - t) - φ x' t (t' - t)‖ ≤ (1 + L * (t' - t)) * ‖x - x'‖)
    (hloc : ∀ t t', t0 ≤ t → t ≤ t' → t' ≤ T →
      (∃ k, (t0 :: rest)[k]? = some t ∧ (t0 :: rest)[k + 1]? = some t') →
      ‖φ (y t) t (t' - t) - y t'‖ ≤ δ * (t' - t))
    (htraj : IsTrajectory φ (y t0) (t0 :: rest) sol) :
    ∀ (k : ℕ) (t : ℝ) (x : V), (t0 :: rest)[k]? = some t → sol[k]? = some x →
      ‖x - y t‖ ≤ δ * (t - t0) * Real.exp (L * (t - t0)) := by
  intro k
  induction k with
  | zero =>
    intro t x ht hx
    rw [htraj.start] at hx
    simp only [List.getElem?_cons_zero, Option.some.injEq] at ht hx
    subst ht hx
    simp
  | succ k ih =>
    intro t' x' ht' hx'
    have hk : k + 1 < (t0 :: rest).length := (List.getElem?_eq_some_iff.1 ht').1
    obtain ⟨t, ht⟩ : ∃ t, (t0 :: rest)[k]? = some t := ⟨_, List.getElem?_eq_getElem (by omega)⟩
    obtain ⟨x, hx⟩ : ∃ x, sol[k]? = some x :=
      ⟨_, List.getElem?_eq_getElem (by rw [htraj.length_eq]; omega)⟩
    have hnext := htraj.next k t t' x ht ht' hx
    rw [hx'] at hnext
    cases hnext
    have h0t : t0 ≤ t := by
      have hm := List.mem_of_getElem? ht
      rw [List.pairwise_cons] at hmono
      rcases List.mem_cons.1 hm with rfl | hm
      · exact le_refl _
      · exact hmono.1 _ hm
    have htt' : t ≤ t' := by
      have := List.pairwise_iff_getElem.1 hmono k (k + 1) (by omega) hk (by omega)
      obtain ⟨_, rfl⟩ := List.getElem?_eq_some_iff.1 ht
      obtain ⟨_, rfl⟩ := List.getElem?_eq_some_iff.1 ht'
      exact this
    have htT := hT t' (List.mem_of_getElem? ht')
    have hI := ih t x ht hx
    have hs := hstab t t' h0t htt' htT ⟨k, ht, ht'⟩ x (y t)
    have hl := hloc t t' h0t htt' htT ⟨k, ht, ht'⟩
    set g := t' - t with hg
    have hg0 : 0 ≤ g := by rw [hg]; linarith
    have htri : ‖φ x t g - y t'‖ ≤ ‖φ x t g - φ (y t) t g‖ + ‖φ (y t) t g - y t'‖ :=
      norm_sub_le_norm_sub_add_norm_sub _ _ _
    set s := t - t0 with hs0
    have hs00 : 0 ≤ s := by rw [hs0]; linarith
    have hst : t' - t0 = s + g := by rw [hs0, hg]; ring
    rw [hst]
    have hexp : 1 + L * g ≤ Real.exp (L * g) := by
      have := Real.add_one_le_exp (L * g); linarith
    have hexp0 : 1 ≤ Real.exp (L * (s + g)) := Real.one_le_exp (by positivity)
    have hLg : 0 ≤ 1 + L * g := by positivity
    calc ‖φ x t g - y t'‖ ≤ (1 + L * g) * ‖x - y t‖ + δ * g := by linarith
      _ ≤ (1 + L * g) * (δ * s * Real.exp (L * s)) + δ * g := by
          have := mul_le_mul_of_nonneg_left hI hLg; linarith
      _ ≤ Real.exp (L * g) * (δ * s * Real.exp (L * s)) + δ * g * Real.exp (L * (s + g)) := by
          have h1 : (1 + L * g) * (δ * s * Real.exp (L * s)) ≤
              Real.exp (L * g) * (δ * s * Real.exp (L * s)) :=
            mul_le_mul_of_nonneg_right hexp (by positivity)
          have h2 : δ * g * 1 ≤ δ * g * Real.exp (L * (s + g)) :=
            mul_le_mul_of_nonneg_left hexp0 (by positivity)
          linarith
      _ = δ * (s + g) * Real.exp (L * (s + g)) := by
          rw [mul_add L s g, Real.exp_add]; ring

/-- Local error of Euler's method: `‖y b - y a - (b - a) y'(a)‖ ≤ M (b-a)²/2` when `y'` is
`M`-Lipschitz from the left end point. -/
theorem euler_local_error {y y' : ℝ → V} {a b M : ℝ} (hab : a ≤ b)
    (hc : ContinuousOn y (Icc a b))
    (hy : ∀ t ∈ Ico a b, HasDerivWithinAt y (y' t) (Ici t) t)
    (hM : ∀ t ∈ Ico a b, ‖y' t - y' a‖ ≤ M * (t - a)) :
    ‖y a + (b - a) • y' a - y b‖ ≤ M / 2 * (b - a) ^ 2 := by
  have key := image_norm_le_of_norm_deriv_right_le_deriv_boundary (a := a) (b := b)
    (f := fun t => y t - y a - (t - a) • y' a) (f' := fun t => y' t - y' a)
    (B := fun t => M / 2 * (t - a) ^ 2) (B' := fun t => M * (t - a))
    ?_ ?_ ?_ ?_ hM (x := b) ⟨hab, le_refl _⟩
  · have e : y a + (b - a) • y' a - y b = -(y b - y a - (b - a) • y' a) := by abel
    rw [e, norm_neg]
    exact key
  · exact (hc.sub continuousOn_const).sub
      ((continuousOn_id.sub continuousOn_const).smul continuousOn_const)
  · intro t ht
    have h1 := (hy t ht).sub_const (y a)
    have h2 : HasDerivWithinAt (fun t : ℝ => (t - a) • y' a) ((1 : ℝ) • y' a) (Ici t) t :=
      (((hasDerivAt_id t).sub_const a).smul_const (y' a)).hasDerivWithinAt
    have := h1.sub h2
    rw [one_smul] at this
    exact this
  · simp
  · intro t
    have := (((hasDerivAt_id t).sub_const a).pow 2).const_mul (M / 2)
    refine this.congr_deriv ?_
    simp only [id_eq, Nat.cast_ofNat, mul_one]
    ring

end Torchdyn
