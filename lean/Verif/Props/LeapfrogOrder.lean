import Verif.Props.LocalConvergence
import Verif.Props.Symplectic
import Mathlib.Analysis.SpecialFunctions.Trigonometric.Deriv

/-!
C111, C112: accuracy and stability of the asynchronous leapfrog solver of `odeint_symplectic` (`/repo/torchdyn/numerics/solvers/ode.py:107-135`,
`AsynchronousLeapfrog`; `/repo/torchdyn/numerics/odeint.py:95-143`, `odeint_symplectic`).

The solver carries a velocity `v` besides the state `x` and never evaluates the field at the state itself: the reflection
`v' = 2 f(t + h/2, x + (h/2) v) - v` amplifies nothing but also damps nothing. The error of the state is `O(h²)` and that of the
velocity is `O(h)`, on grids whose gaps are comparable to each other.
-/

set_option linter.unusedSectionVars false

namespace Torchdyn

open Spec Set

section generic

variable {V : Type} [NormedAddCommGroup V] [NormedSpace ℝ V] [FiniteDimensional ℝ V]

/-- The trapezoidal rule with an Euler predictor satisfies the order conditions up to order two. -/
theorem heun_order_conditions : ∀ τ : RTree, τ.order ≤ 2 → orderDefect [[], [1]] ([1 / 2, 1 / 2] : List ℝ) τ = 0 := by
  have h : ∀ τ : RTree, τ.order ≤ 2 → orderDefect [[], [1]] ([1 / 2, 1 / 2] : List ℚ) τ = 0 :=
    forall_trees 1 _ (by decide +kernel)
  intro τ hτ
  have := orderDefect_cast [[], [1]] [1 / 2, 1 / 2] τ
  rw [h τ hτ] at this
  simpa using this

/-- Along a solution, the leapfrog step started with the exact velocity has a local error `O(h³)` in the state and `O(h²)` in
the velocity. -/
theorem leapfrog_local {g : ℝ → V → V} (hg : ContDiff ℝ 2 (fun p : ℝ × V => g p.1 p.2)) {L : ℝ} (hL0 : 0 ≤ L)
    (hL : ∀ t x x', ‖g t x - g t x'‖ ≤ L * ‖x - x'‖) {y : ℝ → V} {t0 T : ℝ}
    (hy : ∀ t ∈ Icc t0 T, HasDerivWithinAt y (g t (y t)) (Icc t0 T) t) :
    ∃ C δ, 0 ≤ C ∧ 0 < δ ∧ ∀ t h, t0 ≤ t → 0 < h → h ≤ δ → t + h ≤ T →
      ‖y t + h • g (t + h / 2) (y t + (h / 2) • g t (y t)) - y (t + h)‖ ≤ C * h ^ 3 ∧
      ‖(2 : ℝ) • g (t + h / 2) (y t + (h / 2) • g t (y t)) - g t (y t) - g (t + h) (y (t + h))‖ ≤ C * h ^ 2 := by
  obtain ⟨C1, δ1, hC1, hδ1, H1⟩ := rkT_local_error (n := 1) (by exact_mod_cast hg) hy [[], [1 / 2]] (by simp [Explicit]) [0, 1]
    midpoint_order_conditions
  obtain ⟨C2, δ2, hC2, hδ2, H2⟩ := rkT_local_error (n := 1) (by exact_mod_cast hg) hy [[], [1]] (by simp [Explicit])
    [1 / 2, 1 / 2] heun_order_conditions
  obtain ⟨C3, δ3, hC3, hδ3, H3⟩ := rkT_local_error (n := 0) (by exact_mod_cast hg.of_le one_le_two) hy [[]] (by simp [Explicit])
    [1] euler_order_conditions
  refine ⟨2 * C1 + 2 * C2 + L * C3, min δ1 (min δ2 δ3), by positivity, by positivity, fun t h ht hh hδ hT => ?_⟩
  have h1 := H1 t h ht hh.le (hδ.trans (min_le_left _ _)) hT
  have h2 := H2 t h ht hh.le (hδ.trans ((min_le_right _ _).trans (min_le_left _ _))) hT
  have h3 := H3 t h ht hh.le (hδ.trans ((min_le_right _ _).trans (min_le_right _ _))) hT
  simp only [List.map_cons, List.map_nil, List.sum_cons, List.sum_nil, rkStagesT, comb, List.nil_append, List.cons_append,
    zero_smul, add_zero, zero_add, one_smul, smul_zero, zero_mul, one_mul] at h1 h2 h3
  have e1 : t + 1 / 2 * h = t + h / 2 := by ring
  have e2 : h • (1 / 2 : ℝ) • g t (y t) = (h / 2) • g t (y t) := by rw [smul_smul]; congr 1; ring
  rw [e1, e2] at h1
  have h4 : ‖g (t + h) (y t + h • g t (y t)) - g (t + h) (y (t + h))‖ ≤ L * (C3 * h ^ 2) :=
    (hL _ _ _).trans (mul_le_mul_of_nonneg_left h3 hL0)
  generalize g (t + h / 2) (y t + (h / 2) • g t (y t)) = m at h1 ⊢
  generalize g (t + h) (y t + h • g t (y t)) = q at h2 h4
  generalize g (t + h) (y (t + h)) = r at h4 ⊢
  generalize g t (y t) = p at h2 ⊢
  have hh3 : 0 ≤ h ^ 3 := by positivity
  have hLC : 0 ≤ L * C3 := by positivity
  refine ⟨h1.trans (mul_le_mul_of_nonneg_right (by linarith) hh3), ?_⟩
  have e3 : h • ((2 : ℝ) • m - p - r) = (2 : ℝ) • (y t + h • m - y (t + h)) -
      (2 : ℝ) • (y t + h • ((1 / 2 : ℝ) • p + (1 / 2 : ℝ) • q) - y (t + h)) + h • (q - r) := by module
  have h5 : h * ‖(2 : ℝ) • m - p - r‖ ≤ h * ((2 * C1 + 2 * C2 + L * C3) * h ^ 2) := by
    have : ‖h • ((2 : ℝ) • m - p - r)‖ = h * ‖(2 : ℝ) • m - p - r‖ := by rw [norm_smul, Real.norm_of_nonneg hh.le]
    rw [← this, e3]
    refine (norm_add_le _ _).trans ?_
    refine (add_le_add_left (norm_sub_le _ _) _).trans ?_
    simp only [norm_smul, Real.norm_of_nonneg hh.le, Real.norm_ofNat]
    have := mul_le_mul_of_nonneg_left h4 hh.le
    calc _ ≤ 2 * (C1 * h ^ (1 + 2)) + 2 * (C2 * h ^ (1 + 2)) + h * (L * (C3 * h ^ 2)) :=
          add_le_add (add_le_add (mul_le_mul_of_nonneg_left h1 zero_le_two) (mul_le_mul_of_nonneg_left h2 zero_le_two)) this
      _ = _ := by ring
  exact le_of_mul_le_mul_left h5 hh

/-- One leapfrog step: half a drift, reflection of the velocity about the field at the midpoint, half a drift. -/
noncomputable def alfMove (f : ℝ → V → V) (xv : V × V) (t dt : ℝ) : V × V :=
  let mid := xv.1 + (dt / 2) • xv.2
  let v' := (2 : ℝ) • f (t + dt / 2) mid - xv.2
  (mid + (dt / 2) • v', v')

/-- The error of the state plus `h` times that of the velocity grows by at most `1 + κ s` in a step of length `s ∈ [h/ρ, h]`, up
to `O(s h²)`. -/
theorem leapfrog_step {g : ℝ → V → V} {L : ℝ} (hL0 : 0 ≤ L) (hL : ∀ t x x', ‖g t x - g t x'‖ ≤ L * ‖x - x'‖) {D ρ h s t : ℝ}
    (hD : 0 ≤ D) (hs : 0 < s) (hsh : s ≤ h) (hρ : h ≤ ρ * s) {y p y' p' x v : V}
    (h1 : ‖y + s • g (t + s / 2) (y + (s / 2) • p) - y'‖ ≤ D * s ^ 3)
    (h2 : ‖(2 : ℝ) • g (t + s / 2) (y + (s / 2) • p) - p - p'‖ ≤ D * s ^ 2) :
    ‖(alfMove g (x, v) t s).1 - y'‖ + h * ‖(alfMove g (x, v) t s).2 - p'‖ ≤
      (1 + L * (2 * ρ + 2) * s) * (‖x - y‖ + h * ‖v - p‖) + 2 * D * s * h ^ 2 := by
  have hh : 0 < h := hs.trans_le hsh
  have hm : ‖g (t + s / 2) (x + (s / 2) • v) - g (t + s / 2) (y + (s / 2) • p)‖ ≤ L * (‖x - y‖ + s / 2 * ‖v - p‖) := by
    refine (hL _ _ _).trans (mul_le_mul_of_nonneg_left ?_ hL0)
    have : x + (s / 2) • v - (y + (s / 2) • p) = (x - y) + (s / 2) • (v - p) := by module
    rw [this]
    refine (norm_add_le _ _).trans ?_
    rw [norm_smul, Real.norm_of_nonneg (by positivity)]
  have e1 : (alfMove g (x, v) t s).1 - y' = (x - y) + s • (g (t + s / 2) (x + (s / 2) • v) - g (t + s / 2) (y + (s / 2) • p)) +
      (y + s • g (t + s / 2) (y + (s / 2) • p) - y') := by
    simp only [alfMove]
    module
  have e2 : (alfMove g (x, v) t s).2 - p' = (2 : ℝ) • (g (t + s / 2) (x + (s / 2) • v) - g (t + s / 2) (y + (s / 2) • p)) -
      (v - p) + ((2 : ℝ) • g (t + s / 2) (y + (s / 2) • p) - p - p') := by
    simp only [alfMove]
    module
  generalize g (t + s / 2) (x + (s / 2) • v) - g (t + s / 2) (y + (s / 2) • p) = m at hm e1 e2
  have n1 : ‖(alfMove g (x, v) t s).1 - y'‖ ≤ ‖x - y‖ + s * (L * (‖x - y‖ + s / 2 * ‖v - p‖)) + D * s ^ 3 := by
    rw [e1]
    refine (norm_add_le _ _).trans (add_le_add ((norm_add_le _ _).trans (add_le_add le_rfl ?_)) h1)
    rw [norm_smul, Real.norm_of_nonneg hs.le]
    exact mul_le_mul_of_nonneg_left hm hs.le
  have n2 : ‖(alfMove g (x, v) t s).2 - p'‖ ≤ 2 * (L * (‖x - y‖ + s / 2 * ‖v - p‖)) + ‖v - p‖ + D * s ^ 2 := by
    rw [e2]
    refine (norm_add_le _ _).trans (add_le_add ((norm_sub_le _ _).trans (add_le_add ?_ le_rfl)) h2)
    rw [norm_smul, Real.norm_ofNat]
    exact mul_le_mul_of_nonneg_left hm zero_le_two
  have he : 0 ≤ ‖x - y‖ := norm_nonneg _
  have hw : 0 ≤ ‖v - p‖ := norm_nonneg _
  generalize ‖x - y‖ = e at *
  generalize ‖v - p‖ = w at *
  have n3 := mul_le_mul_of_nonneg_left n2 hh.le
  -- the terms to compare
  have a1 : s * (L * (s / 2 * w)) ≤ L * s * (h * w) := by
    have : s / 2 * (L * s * w) ≤ h * (L * s * w) := mul_le_mul_of_nonneg_right (by linarith) (by positivity)
    linarith
  have a2 : h * (2 * (L * e)) ≤ 2 * L * ρ * s * e := by
    have : h * (2 * L * e) ≤ ρ * s * (2 * L * e) := mul_le_mul_of_nonneg_right hρ (by positivity)
    linarith
  have a3 : D * s ^ 3 ≤ D * s * h ^ 2 := by
    have : s ^ 2 ≤ h ^ 2 := pow_le_pow_left₀ hs.le hsh 2
    have := mul_le_mul_of_nonneg_left this (mul_nonneg hD hs.le)
    linarith [show D * s ^ 3 = D * s * s ^ 2 by ring]
  have a4 : h * (D * s ^ 2) ≤ D * s * h ^ 2 := by
    have := mul_le_mul_of_nonneg_left hsh (mul_nonneg (mul_nonneg hD hs.le) hh.le)
    linarith [show h * (D * s ^ 2) = D * s * h * s by ring, show D * s * h ^ 2 = D * s * h * h by ring]
  have a5 : 0 ≤ L * s * e := by positivity
  have hρ0 : 0 ≤ ρ := by
    by_contra hneg
    have : ρ * s < 0 := mul_neg_of_neg_of_pos (not_le.1 hneg) hs
    linarith
  have a6 : 0 ≤ L * ρ * s * (h * w) := by positivity
  calc _ ≤ e + s * (L * (e + s / 2 * w)) + D * s ^ 3 + h * (2 * (L * (e + s / 2 * w)) + w + D * s ^ 2) := add_le_add n1 n3
    _ = e + L * s * e + s * (L * (s / 2 * w)) + D * s ^ 3 + h * (2 * (L * e)) + L * s * (h * w) + h * w + h * (D * s ^ 2) := by
      ring
    _ ≤ e + L * s * e + L * s * (h * w) + D * s * h ^ 2 + 2 * L * ρ * s * e + L * s * (h * w) + h * w + D * s * h ^ 2 := by
      linarith
    _ ≤ e + L * s * e + L * s * (h * w) + D * s * h ^ 2 + 2 * L * ρ * s * e + L * s * (h * w) + h * w + D * s * h ^ 2 +
        L * s * e + 2 * (L * ρ * s * (h * w)) := by linarith
    _ = _ := by ring

/-- Every trajectory of leapfrog steps started at the exact state, with a velocity accurate to `h`, over a grid with gaps in
`[h/ρ, h]`, stays within `C h²` of the solution in the state and `C h` in the velocity. No Lipschitz hypothesis. -/
theorem leapfrog_near {f : ℝ → V → V} (hf : ContDiff ℝ 2 (fun p : ℝ × V => f p.1 p.2)) {y : ℝ → V} {t0 T : ℝ}
    (hy : ∀ t ∈ Icc t0 T, HasDerivWithinAt y (f t (y t)) (Icc t0 T) t) {ρ : ℝ} (hρ : 1 ≤ ρ) :
    ∃ C δ, 0 ≤ C ∧ 0 < δ ∧ ∀ (h : ℝ) (ts : List ℝ) (v0 : V) (sol : List (V × V)), 0 < h → h ≤ δ → ts[0]? = some t0 →
      (∀ t ∈ ts, t ≤ T) →
      (∀ (k : ℕ) (t t' : ℝ), ts[k]? = some t → ts[k + 1]? = some t' → h ≤ ρ * (t' - t) ∧ t' - t ≤ h) →
      ‖v0 - f t0 (y t0)‖ ≤ h → IsTrajectory (alfMove f) (y t0, v0) ts sol →
      ∀ (k : ℕ) (t : ℝ) (xv : V × V), ts[k]? = some t → sol[k]? = some xv →
        ‖xv.1 - y t‖ ≤ C * h ^ 2 ∧ ‖xv.2 - f t (y t)‖ ≤ C * h := by
  obtain ⟨g, L, M, R, hg, hL0, hL, hM, hR, hag, hyg⟩ := exists_cutoff_time (n := 2) two_ne_zero (by exact_mod_cast hf) hy
  obtain ⟨D, δ0, hD, hδ0, hloc⟩ := leapfrog_local (by exact_mod_cast hg) hL0 hL hyg
  have hM0 : 0 ≤ M := (norm_nonneg _).trans (hM 0 0)
  obtain ⟨κ, hκ⟩ : ∃ κ, κ = L * (2 * ρ + 2) := ⟨_, rfl⟩
  have hκ0 : 0 ≤ κ := by rw [hκ]; exact mul_nonneg hL0 (by linarith)
  obtain ⟨K, hK⟩ : ∃ K, K = Real.exp (κ * |T - t0|) * (1 + 2 * D * |T - t0|) := ⟨_, rfl⟩
  have hK0 : 0 ≤ K := by rw [hK]; positivity
  refine ⟨K, min (min δ0 1) (min (1 / (2 * (K + 1))) (1 / (M + 1))), hK0, by positivity, ?_⟩
  intro h ts v0 sol hh hδ hts0 htT hgap hv0 htraj
  have hδa : h ≤ δ0 := hδ.trans ((min_le_left _ _).trans (min_le_left _ _))
  have hδb : h ≤ 1 := hδ.trans ((min_le_left _ _).trans (min_le_right _ _))
  have hδc : K * h ≤ 1 / 2 := by
    have h1 : h ≤ 1 / (2 * (K + 1)) := hδ.trans ((min_le_right _ _).trans (min_le_left _ _))
    have h2 := mul_le_mul_of_nonneg_left h1 (by positivity : (0 : ℝ) ≤ K + 1)
    have h3 : (K + 1) * (1 / (2 * (K + 1))) = 1 / 2 := by field_simp
    linarith
  have hδd : h / 2 * (M + 1) ≤ 1 / 2 := by
    have h1 : h ≤ 1 / (M + 1) := hδ.trans ((min_le_right _ _).trans (min_le_right _ _))
    have h2 := mul_le_mul_of_nonneg_right h1 (by positivity : (0 : ℝ) ≤ M + 1)
    have h3 : 1 / (M + 1) * (M + 1) = 1 := by field_simp
    linarith
  have hbig : ∀ t, t0 ≤ t → t ≤ T → Real.exp (κ * (t - t0)) * (1 + 2 * D * (t - t0)) ≤ K := by
    intro t h1 h2
    have h3 : t - t0 ≤ |T - t0| := (by linarith : t - t0 ≤ T - t0).trans (le_abs_self _)
    rw [hK]
    refine mul_le_mul (Real.exp_le_exp.2 (mul_le_mul_of_nonneg_left h3 hκ0)) ?_ ?_ (Real.exp_pos _).le
    · have := mul_le_mul_of_nonneg_left h3 (by positivity : (0 : ℝ) ≤ 2 * D)
      linarith
    · have := mul_nonneg (by positivity : (0 : ℝ) ≤ 2 * D) (by linarith : 0 ≤ t - t0)
      linarith
  -- the invariant
  have key : ∀ (k : ℕ) (t : ℝ) (xv : V × V), ts[k]? = some t → sol[k]? = some xv → t0 ≤ t ∧
      ‖xv.1 - y t‖ + h * ‖xv.2 - g t (y t)‖ ≤ Real.exp (κ * (t - t0)) * (1 + 2 * D * (t - t0)) * h ^ 2 := by
    intro k
    induction k with
    | zero =>
      intro t xv ht hxv
      rw [hts0] at ht
      rw [htraj.start] at hxv
      cases ht
      cases hxv
      have hT : t0 ≤ T := htT t0 (List.mem_of_getElem? hts0)
      have hfg : f t0 (y t0) = g t0 (y t0) := hag t0 _ (by linarith) (by linarith)
        (by linarith [hR t0 ⟨le_rfl, hT⟩])
      refine ⟨le_rfl, ?_⟩
      rw [← hfg]
      have := mul_le_mul_of_nonneg_left hv0 hh.le
      simp only [sub_self, norm_zero, mul_zero, Real.exp_zero, zero_add, add_zero, one_mul]
      linarith [sq h]
    | succ k ih =>
      intro t' xv' ht' hxv'
      obtain ⟨hk, -⟩ := List.getElem?_eq_some_iff.1 ht'
      have hk0 : k < ts.length := by omega
      obtain ⟨t, ht⟩ : ∃ t, ts[k]? = some t := ⟨ts[k], List.getElem?_eq_getElem hk0⟩
      obtain ⟨⟨x, v⟩, hxv⟩ : ∃ xv, sol[k]? = some xv :=
        ⟨sol[k]'(by rw [htraj.length_eq]; exact hk0), List.getElem?_eq_getElem _⟩
      obtain ⟨htt, hu⟩ := ih t (x, v) ht hxv
      simp only at hu
      have hn := htraj.next k t t' (x, v) ht ht' hxv
      rw [hn] at hxv'
      cases hxv'
      obtain ⟨hg1, hg2⟩ := hgap k t t' ht ht'
      obtain ⟨s, rfl⟩ : ∃ s, t' = t + s := ⟨t' - t, by ring⟩
      rw [add_sub_cancel_left] at hg1 hg2 ⊢
      have hs : 0 < s := by
        by_contra hneg
        have : ρ * s ≤ 0 := mul_nonpos_of_nonneg_of_nonpos (by linarith) (not_lt.1 hneg)
        linarith
      have hT : t + s ≤ T := htT _ (List.mem_of_getElem? ht')
      have hb := hbig t htt (by linarith)
      -- the step stays in the region where `f` and `g` agree
      have hu2 : ‖x - y t‖ + h * ‖v - g t (y t)‖ ≤ K * h ^ 2 := hu.trans (mul_le_mul_of_nonneg_right hb (by positivity))
      have hx : ‖x - y t‖ ≤ 1 / 2 := by
        have h1 : 0 ≤ h * ‖v - g t (y t)‖ := by positivity
        have h2 : K * h * h ≤ 1 / 2 * 1 := mul_le_mul hδc hδb hh.le (by norm_num)
        linarith [show K * h ^ 2 = K * h * h by ring]
      have hv : ‖v - g t (y t)‖ ≤ 1 := by
        have h1 : 0 ≤ ‖x - y t‖ := norm_nonneg _
        have h2 : h * ‖v - g t (y t)‖ ≤ h * (K * h) := by linarith [show K * h ^ 2 = h * (K * h) by ring]
        linarith [le_of_mul_le_mul_left h2 hh]
      have hmid : f (t + s / 2) (x + (s / 2) • v) = g (t + s / 2) (x + (s / 2) • v) := by
        refine hag _ _ (by linarith) (by linarith) ?_
        have h1 : x + (s / 2) • v = y t + (x - y t) + (s / 2) • v := by abel
        have h2 : ‖v‖ ≤ M + 1 := by
          have : v = g t (y t) + (v - g t (y t)) := by abel
          rw [this]
          exact (norm_add_le _ _).trans (add_le_add (hM _ _) hv)
        have h3 : ‖(s / 2) • v‖ ≤ 1 / 2 := by
          rw [norm_smul, Real.norm_of_nonneg (by positivity)]
          exact (mul_le_mul (by linarith) h2 (norm_nonneg _) (by positivity)).trans hδd
        rw [h1]
        have h4 := hR t ⟨htt, by linarith⟩
        have h5 := norm_add_le (y t + (x - y t)) ((s / 2) • v)
        have h6 := norm_add_le (y t) (x - y t)
        linarith
      have hfg : alfMove f (x, v) t s = alfMove g (x, v) t s := by
        simp only [alfMove, hmid]
      obtain ⟨l1, l2⟩ := hloc t s htt hs (hg2.trans hδa) hT
      have hst := leapfrog_step (x := x) (v := v) hL0 hL hD hs hg2 hg1 l1 l2
      rw [← hκ] at hst
      refine ⟨by linarith, ?_⟩
      rw [hfg]
      refine hst.trans ?_
      have hex : 1 + κ * s ≤ Real.exp (κ * s) := by linarith [Real.add_one_le_exp (κ * s)]
      have hexp : Real.exp (κ * (t + s - t0)) = Real.exp (κ * s) * Real.exp (κ * (t - t0)) := by
        rw [← Real.exp_add]; congr 1; ring
      have hu0 : 0 ≤ ‖x - y t‖ + h * ‖v - g t (y t)‖ := by positivity
      have s1 : (1 + κ * s) * (‖x - y t‖ + h * ‖v - g t (y t)‖) ≤
          Real.exp (κ * (t + s - t0)) * (1 + 2 * D * (t - t0)) * h ^ 2 := by
        refine (mul_le_mul hex hu hu0 (Real.exp_pos _).le).trans (le_of_eq ?_)
        rw [hexp]; ring
      have s2 : 2 * D * s * h ^ 2 ≤ Real.exp (κ * (t + s - t0)) * (2 * D * s * h ^ 2) := by
        have h1 : 1 ≤ Real.exp (κ * (t + s - t0)) := Real.one_le_exp (mul_nonneg hκ0 (by linarith))
        have := mul_le_mul_of_nonneg_right h1 (by positivity : (0 : ℝ) ≤ 2 * D * s * h ^ 2)
        linarith
      refine (add_le_add s1 s2).trans (le_of_eq ?_)
      ring
  intro k t xv ht hxv
  obtain ⟨htt, hu⟩ := key k t xv ht hxv
  have hT : t ≤ T := htT t (List.mem_of_getElem? ht)
  have hfg : f t (y t) = g t (y t) := hag t _ (by linarith) (by linarith) (by linarith [hR t ⟨htt, hT⟩])
  have hu2 := hu.trans (mul_le_mul_of_nonneg_right (hbig t htt hT) (by positivity))
  rw [hfg]
  refine ⟨?_, ?_⟩
  · have : 0 ≤ h * ‖xv.2 - g t (y t)‖ := by positivity
    linarith
  · have h1 : 0 ≤ ‖xv.1 - y t‖ := norm_nonneg _
    have h2 : h * ‖xv.2 - g t (y t)‖ ≤ h * (K * h) := by linarith [show K * h ^ 2 = h * (K * h) by ring]
    exact le_of_mul_le_mul_left h2 hh

end generic

/-! ### C111 -/

variable {ι : Type} [Fintype ι]

/-- **C111.** `odeint_symplectic` with the leapfrog solver is of second order in the state and first order in the velocity: for
every twice continuously differentiable field, every exact solution on `[t0, T]` and every grid from `t0` inside `[t0, T]` whose
gaps lie between `h/ρ` and `h`, when started at `(y t0, f(t0, y t0))` (or a velocity within `h` of it), the leapfrog steps
give one state per time, within `C h²` of `y` and with velocity within `C h` of `y'`. `C` does not depend on the grid. These
states are what the call returns on every grid it accepts. -/
theorem C111_alf (f : ℝ → (ι → ℝ) → ι → ℝ) (hf : ContDiff ℝ 2 (fun p : ℝ × (ι → ℝ) => f p.1 p.2)) (y : ℝ → ι → ℝ) (t0 T : ℝ)
    (hy : ∀ t ∈ Icc t0 T, HasDerivWithinAt y (f t (y t)) (Icc t0 T) t) (ρ : ℝ) (hρ : 1 ≤ ρ) :
    ∃ C δ, 0 ≤ C ∧ 0 < δ ∧ ∀ (h t1 : ℝ) (rest : List ℝ) (v0 : ι → ℝ) (fuel : ℕ) (atol rtol : ℝ) (all : Bool),
      0 < h → h ≤ δ → (∀ t ∈ t0 :: t1 :: rest, t ≤ T) →
      (∀ (k : ℕ) (t t' : ℝ), (t0 :: t1 :: rest)[k]? = some t → (t0 :: t1 :: rest)[k + 1]? = some t' →
        h ≤ ρ * (t' - t) ∧ t' - t ≤ h) →
      ‖v0 - f t0 (y t0)‖ ≤ h →
      ∃ sol, IsTrajectory (fun xv t dt =>
          let mid := xv.1 + (dt / 2) • xv.2
          let v' := (2 : ℝ) • f (t + dt / 2) mid - xv.2
          (mid + (dt / 2) • v', v')) (y t0, v0) (t0 :: t1 :: rest) sol ∧
        (Separated (t0 :: t1 :: rest) →
          odeintSymplecticAlf (m := Except PyErr) fuel (pureField f) (some 1) (y t0, v0) (t0 :: t1 :: rest) false atol rtol
            all [] = .ok (some (t0 :: t1 :: rest, sol))) ∧
        ∀ (k : ℕ) (t : ℝ) (xv : (ι → ℝ) × (ι → ℝ)), (t0 :: t1 :: rest)[k]? = some t → sol[k]? = some xv →
          ‖xv.1 - y t‖ ≤ C * h ^ 2 ∧ ‖xv.2 - f t (y t)‖ ≤ C * h := by
  obtain ⟨C, δ, hC, hδ, H⟩ := leapfrog_near hf hy hρ
  refine ⟨C, δ, hC, hδ, fun h t1 rest v0 fuel atol rtol all hh hhδ hT hgap hv0 => ?_⟩
  have hd : t0 ≤ t1 := by
    have h1 := (hgap 0 t0 t1 rfl rfl).1
    by_contra hneg
    have : ρ * (t1 - t0) ≤ 0 := mul_nonpos_of_nonneg_of_nonpos (by linarith) (by linarith)
    linarith
  have htraj := gridStates_isTrajectory (alfMove f) (y t0, v0) (t0 :: t1 :: rest) (by simp)
  refine ⟨_, htraj, fun hsep => ?_, H h _ v0 _ hh hhδ rfl hT hgap hv0 htraj⟩
  obtain ⟨sol, hsol, htraj'⟩ := C69_fixed_partial fuel f (y t0, v0) t0 t1 rest hd hsep atol rtol all
  rw [hsol, htraj'.eq_gridStates (by simp)]
  rfl

/-- C111 applied to the rotation `x' = -y, y' = x` and its solution `(cos t, sin t)` on `[0, 1]`, on grids with gaps at most a
factor 2 apart. -/
example := C111_alf (ι := Fin 2) (fun _ x => ![-x 1, x 0]) (by
    refine contDiff_pi.2 fun i => ?_
    fin_cases i
    · exact ((contDiff_apply ℝ ℝ (1 : Fin 2)).comp contDiff_snd).neg
    · exact (contDiff_apply ℝ ℝ (0 : Fin 2)).comp contDiff_snd)
  (fun t => ![Real.cos t, Real.sin t]) 0 1 (by
    intro t _
    refine HasDerivAt.hasDerivWithinAt (hasDerivAt_pi.2 fun i => ?_)
    fin_cases i
    · exact Real.hasDerivAt_cos t
    · exact Real.hasDerivAt_sin t) 2 one_le_two

/-- The hypotheses on the grid are met by equidistant points: `[0, h, 2h]`. -/
example (h : ℝ) (hh : 0 < h) : ∀ (k : ℕ) (t t' : ℝ), [0, h, 2 * h][k]? = some t → [0, h, 2 * h][k + 1]? = some t' →
    h ≤ 2 * (t' - t) ∧ t' - t ≤ h := by
  intro k t t' h1 h2
  match k with
  | 0 => simp at h1 h2; constructor <;> linarith
  | 1 => simp at h1 h2; constructor <;> linarith
  | k + 2 => simp at h2

/-! ### C112 -/

/-- The factor by which `k` leapfrog steps of length `h` multiply the state of `x' = a x`, `θ = a h`, `r = √(1 + θ²)`. -/
noncomputable def leapfrogFactor (θ : ℝ) (k : ℕ) : ℝ :=
  ((1 + √(1 + θ ^ 2)) ^ 2 * (θ + √(1 + θ ^ 2)) ^ k - (√(1 + θ ^ 2) - 1) ^ 2 * (θ - √(1 + θ ^ 2)) ^ k) / (4 * √(1 + θ ^ 2))

/-- The factor of the velocity, relative to `a x0`. -/
noncomputable def leapfrogVelocity (θ : ℝ) (k : ℕ) : ℝ :=
  ((1 + √(1 + θ ^ 2)) * (θ + √(1 + θ ^ 2)) ^ k + (√(1 + θ ^ 2) - 1) * (θ - √(1 + θ ^ 2)) ^ k) / (2 * √(1 + θ ^ 2))

theorem leapfrog_factor_succ (θ : ℝ) (k : ℕ) :
    leapfrogFactor θ (k + 1) = (1 + θ) * leapfrogFactor θ k + θ ^ 2 / 2 * leapfrogVelocity θ k ∧
    leapfrogVelocity θ (k + 1) = 2 * leapfrogFactor θ k + (θ - 1) * leapfrogVelocity θ k := by
  have hr : 0 < √(1 + θ ^ 2) := Real.sqrt_pos.2 (by positivity)
  have hr2 : √(1 + θ ^ 2) ^ 2 = 1 + θ ^ 2 := Real.sq_sqrt (by positivity)
  unfold leapfrogFactor leapfrogVelocity
  generalize √(1 + θ ^ 2) = r at hr hr2
  have hθ : θ ^ 2 = r ^ 2 - 1 := by linarith
  constructor
  · rw [pow_succ, pow_succ, hθ]
    field_simp
    ring
  · rw [pow_succ, pow_succ]
    field_simp
    ring

theorem leapfrog_factor_zero (θ : ℝ) : leapfrogFactor θ 0 = 1 ∧ leapfrogVelocity θ 0 = 1 := by
  have hr : 0 < √(1 + θ ^ 2) := Real.sqrt_pos.2 (by positivity)
  unfold leapfrogFactor leapfrogVelocity
  generalize √(1 + θ ^ 2) = r at hr
  constructor
  · field_simp
    ring
  · field_simp
    ring

/-- **C112.** On `x' = a x`, started with the exact velocity, over a grid with constant gap `h`, the `k`-th state returned by
`odeint_symplectic` with the leapfrog solver is exactly `leapfrogFactor (a h) k` times the initial state: a sum of a mode
`(θ + √(1+θ²))^k`, which follows `exp (a h k)`, and a mode `(θ - √(1+θ²))^k`, whose sign alternates. -/
theorem C112_linear (a h : ℝ) (x0 : ι → ℝ) (t0 t1 : ℝ) (rest : List ℝ) (hd : t0 ≤ t1) (hsep : Separated (t0 :: t1 :: rest))
    (hgap : ∀ (k : ℕ) (t t' : ℝ), (t0 :: t1 :: rest)[k]? = some t → (t0 :: t1 :: rest)[k + 1]? = some t' → t' - t = h)
    (fuel : ℕ) (atol rtol : ℝ) (all : Bool) :
    ∃ sol, odeintSymplecticAlf (m := Except PyErr) fuel (pureField fun _ x => a • x) (some 1) (x0, a • x0) (t0 :: t1 :: rest)
        false atol rtol all [] = .ok (some (t0 :: t1 :: rest, sol)) ∧ sol.length = (t0 :: t1 :: rest).length ∧
      ∀ (k : ℕ) (xv : (ι → ℝ) × (ι → ℝ)), sol[k]? = some xv → xv.1 = leapfrogFactor (a * h) k • x0 := by
  obtain ⟨sol, hsol, htraj⟩ := C69_fixed_partial fuel (fun _ x => a • x) (x0, a • x0) t0 t1 rest hd hsep atol rtol all
  refine ⟨sol, hsol, htraj.length_eq, ?_⟩
  have key : ∀ (k : ℕ) (xv : (ι → ℝ) × (ι → ℝ)), sol[k]? = some xv →
      xv.1 = leapfrogFactor (a * h) k • x0 ∧ xv.2 = (a * leapfrogVelocity (a * h) k) • x0 := by
    intro k
    induction k with
    | zero =>
      intro xv hxv
      rw [htraj.start] at hxv
      cases hxv
      obtain ⟨e1, e2⟩ := leapfrog_factor_zero (a * h)
      rw [e1, e2]
      exact ⟨(one_smul _ _).symm, by rw [mul_one]⟩
    | succ k ih =>
      intro xv' hxv'
      obtain ⟨hk, -⟩ := List.getElem?_eq_some_iff.1 hxv'
      have hk1 : k + 1 < (t0 :: t1 :: rest).length := by rw [← htraj.length_eq]; exact hk
      obtain ⟨xv, hxv⟩ : ∃ xv, sol[k]? = some xv := ⟨sol[k], List.getElem?_eq_getElem (by omega)⟩
      have ht := List.getElem?_eq_getElem (l := t0 :: t1 :: rest) (i := k) (by omega)
      have ht' := List.getElem?_eq_getElem (l := t0 :: t1 :: rest) (i := k + 1) hk1
      have hn := htraj.next k _ _ xv ht ht' hxv
      rw [hgap k _ _ ht ht', hxv'] at hn
      obtain ⟨i1, i2⟩ := ih xv hxv
      obtain ⟨e1, e2⟩ := leapfrog_factor_succ (a * h) k
      rw [Option.some.inj hn, e1, e2]
      simp only [i1, i2]
      constructor
      · module
      · module
  exact fun k xv hxv => (key k xv hxv).1

/-- The alternating mode is never damped when `θ < 0`. -/
theorem leapfrogFactor_lower (θ : ℝ) (hθ : θ < 0) (k : ℕ) :
    1 < √(1 + θ ^ 2) ∧
    ((√(1 + θ ^ 2) - 1) ^ 2 * (1 + |θ|) ^ k - (1 + √(1 + θ ^ 2)) ^ 2) / (4 * √(1 + θ ^ 2)) ≤ |leapfrogFactor θ k| := by
  have hr : 0 < √(1 + θ ^ 2) := Real.sqrt_pos.2 (by positivity)
  have hr2 : √(1 + θ ^ 2) ^ 2 = 1 + θ ^ 2 := Real.sq_sqrt (by positivity)
  unfold leapfrogFactor
  generalize √(1 + θ ^ 2) = r at hr hr2
  have hr1 : 1 < r := by
    by_contra hneg
    have h1 : r ^ 2 ≤ 1 := pow_le_one₀ hr.le (not_lt.1 hneg)
    have h2 : 0 < θ ^ 2 := by rw [sq]; exact mul_pos_of_neg_of_neg hθ hθ
    linarith
  refine ⟨hr1, ?_⟩
  have hprod : (θ + r) * (r - θ) = 1 := by linear_combination hr2
  have hp : 1 ≤ r - θ := by linarith
  have hm0 : 0 ≤ θ + r := by
    by_contra hneg
    have := mul_neg_of_neg_of_pos (not_le.1 hneg) (by linarith : 0 < r - θ)
    linarith
  have hm1 : θ + r ≤ 1 := by
    have := mul_le_mul_of_nonneg_left hp hm0
    linarith
  rw [abs_div, abs_of_pos (by positivity : (0 : ℝ) < 4 * r)]
  refine div_le_div_of_nonneg_right ?_ (by positivity)
  have h1 : |(r - 1) ^ 2 * (θ - r) ^ k| = (r - 1) ^ 2 * (r - θ) ^ k := by
    rw [abs_mul, abs_of_nonneg (sq_nonneg (r - 1)), abs_pow, abs_sub_comm, abs_of_nonneg (by linarith : 0 ≤ r - θ)]
  have h2 : |(1 + r) ^ 2 * (θ + r) ^ k| ≤ (1 + r) ^ 2 := by
    rw [abs_of_nonneg (by positivity)]
    exact mul_le_of_le_one_right (sq_nonneg _) (pow_le_one₀ hm0 hm1)
  have h3 : (r - 1) ^ 2 * (1 + |θ|) ^ k ≤ (r - 1) ^ 2 * (r - θ) ^ k := by
    refine mul_le_mul_of_nonneg_left (pow_le_pow_left₀ (by positivity) ?_ k) (sq_nonneg _)
    rw [abs_of_neg hθ]
    linarith
  have h4 := abs_sub_abs_le_abs_sub ((r - 1) ^ 2 * (θ - r) ^ k) ((1 + r) ^ 2 * (θ + r) ^ k)
  rw [abs_sub_comm ((r - 1) ^ 2 * (θ - r) ^ k), h1] at h4
  linarith

/-- **C112.** The alternating mode is never damped: on every decaying field `x' = a x`, `a < 0`, and for every step size `h > 0`,
the `k`-th state has norm at least `((r - 1)² (1 + |a| h)^k - (1 + r)²) / (4 r)` times that of the initial state, with
`r = √(1 + a²h²) > 1`: it grows without bound with the number of steps while the exact solution decays. -/
theorem C112_unstable (a h : ℝ) (ha : a < 0) (hh : 0 < h) (x0 : ι → ℝ) (t0 t1 : ℝ) (rest : List ℝ) (hd : t0 ≤ t1)
    (hsep : Separated (t0 :: t1 :: rest))
    (hgap : ∀ (k : ℕ) (t t' : ℝ), (t0 :: t1 :: rest)[k]? = some t → (t0 :: t1 :: rest)[k + 1]? = some t' → t' - t = h)
    (fuel : ℕ) (atol rtol : ℝ) (all : Bool) :
    ∃ r sol, r = √(1 + (a * h) ^ 2) ∧ 1 < r ∧ odeintSymplecticAlf (m := Except PyErr) fuel (pureField fun _ x => a • x) (some 1)
        (x0, a • x0) (t0 :: t1 :: rest) false atol rtol all [] = .ok (some (t0 :: t1 :: rest, sol)) ∧
      ∀ (k : ℕ) (xv : (ι → ℝ) × (ι → ℝ)), sol[k]? = some xv →
        ((r - 1) ^ 2 * (1 + |a| * h) ^ k - (1 + r) ^ 2) / (4 * r) * ‖x0‖ ≤ ‖xv.1‖ := by
  obtain ⟨sol, hsol, -, H⟩ := C112_linear a h x0 t0 t1 rest hd hsep hgap fuel atol rtol all
  have hθ : a * h < 0 := mul_neg_of_neg_of_pos ha hh
  refine ⟨_, sol, rfl, (leapfrogFactor_lower (a * h) hθ 0).1, hsol, fun k xv hxv => ?_⟩
  rw [H k xv hxv, norm_smul, Real.norm_eq_abs]
  have := (leapfrogFactor_lower (a * h) hθ k).2
  rw [abs_mul, abs_of_pos hh] at this
  exact mul_le_mul_of_nonneg_right this (norm_nonneg _)

/-- C112 on `x' = -3x` with step `1/4`, inside the stability region of `euler` (factor `1/4` per step): after `k` leapfrog steps
the factor is `(81/80) 2⁻ᵏ - (1/80) (-2)ᵏ`; it exceeds `10` in absolute value from step `10` on. -/
example (k : ℕ) : leapfrogFactor (-3 * (1 / 4)) k = 81 / 80 * (1 / 2) ^ k - 1 / 80 * (-2) ^ k := by
  have : √(1 + (-3 * (1 / 4) : ℝ) ^ 2) = 5 / 4 := by
    rw [show (1 + (-3 * (1 / 4) : ℝ) ^ 2) = (5 / 4) ^ 2 by norm_num]
    exact Real.sqrt_sq (by norm_num)
  unfold leapfrogFactor
  rw [this, show (-3 * (1 / 4) + 5 / 4 : ℝ) = 1 / 2 by norm_num, show (-3 * (1 / 4) - 5 / 4 : ℝ) = -2 by norm_num]
  ring

/-- A grid meeting the hypotheses of C112. -/
example : Separated [(0 : ℝ), 1 / 4, 1 / 2] ∧ ∀ (k : ℕ) (t t' : ℝ), [(0 : ℝ), 1 / 4, 1 / 2][k]? = some t →
    [(0 : ℝ), 1 / 4, 1 / 2][k + 1]? = some t' → t' - t = 1 / 4 := by
  constructor
  · unfold Separated Close
    simp
    norm_num [abs_le]
  · intro k t t' h1 h2
    match k with
    | 0 => simp at h1 h2; linarith
    | 1 => simp at h1 h2; linarith
    | k + 2 => simp at h2

example : 10 ≤ |(81 / 80 * (1 / 2) ^ 10 - 1 / 80 * (-2) ^ 10 : ℝ)| := by
  rw [abs_of_neg (by norm_num)]
  norm_num

end Torchdyn
