import Mathlib.Analysis.InnerProductSpace.Basic
import Verif.Props.UniformConvergence
import Verif.Props.PararealError

/-!
Property C155: on contracting fields the fixed-step integrators contract as well, forget the initial state and stay accurate
for all times, with one constant for every horizon.
-/

set_option linter.unusedSectionVars false

namespace Torchdyn

open Spec Set

variable {V A : Type} [NormedAddCommGroup V] [InnerProductSpace ℝ V]

/-- The field brings states together at rate `μ`: `⟨x - y, f(t, x) - f(t, y)⟩ ≤ -μ ‖x - y‖²`. -/
def Contracting (μ : ℝ) (f : ℝ → V → V) : Prop :=
  ∀ t x y, inner ℝ (x - y) (f t x - f t y) ≤ -μ * ‖x - y‖ ^ 2

/-- The explicit fixed-step methods and their orders. -/
inductive ExplicitMethod (V A : Type) [NormedAddCommGroup V] [NormedSpace ℝ V] : Solver (Except PyErr) ℝ V A → ℕ → Prop
  | euler : ExplicitMethod V A (eulerSolver (Except PyErr) ℝ V A) 1
  | midpoint : ExplicitMethod V A (midpointSolver (Except PyErr) ℝ V A) 2
  | rk4 : ExplicitMethod V A (rk4Solver (Except PyErr) ℝ V A) 4

section stages

variable {f : ℝ → V → V} {L μ : ℝ}

/-- A stage evaluated at states that differ from `x - y` by at most `s ‖x - y‖`. -/
theorem stage_contract (hL : ∀ t x y, ‖f t x - f t y‖ ≤ L * ‖x - y‖) (hc : Contracting μ f) (hμ : 0 < μ) (hμL : μ ≤ L)
    (τ : ℝ) (x y u v : V) {s : ℝ} (hs0 : 0 ≤ s) (hs1 : s ≤ 1) (hs : ‖u - v‖ ≤ s * ‖x - y‖) :
    ‖f τ (x + u) - f τ (y + v)‖ ≤ 2 * (L * ‖x - y‖) ∧
      inner ℝ (x - y) (f τ (x + u) - f τ (y + v)) ≤ (-μ + 4 * s * L) * ‖x - y‖ ^ 2 := by
  have hL0 : 0 ≤ L := hμ.le.trans hμL
  have e1 : x + u - (y + v) = (x - y) + (u - v) := by abel
  have h1 := hL τ (x + u) (y + v)
  have h2 := hc τ (x + u) (y + v)
  rw [e1] at h1 h2
  have n1 : ‖(x - y) + (u - v)‖ ≤ (1 + s) * ‖x - y‖ := by
    refine (norm_add_le _ _).trans ?_
    linarith
  have n2 : (1 - s) * ‖x - y‖ ≤ ‖(x - y) + (u - v)‖ := by
    have := norm_sub_le ((x - y) + (u - v)) (u - v)
    rw [add_sub_cancel_right] at this
    linarith
  rw [inner_add_left] at h2
  have h3 : -inner ℝ (u - v) (f τ (x + u) - f τ (y + v)) ≤ ‖u - v‖ * ‖f τ (x + u) - f τ (y + v)‖ :=
    (neg_le_abs _).trans (abs_real_inner_le_norm _ _)
  have hd := norm_nonneg (x - y)
  have hD0 := norm_nonneg (f τ (x + u) - f τ (y + v))
  generalize ‖x - y‖ = d at *
  generalize ‖x - y + (u - v)‖ = w at *
  generalize ‖f τ (x + u) - f τ (y + v)‖ = D at *
  generalize ‖u - v‖ = q at *
  have hD : D ≤ L * ((1 + s) * d) := h1.trans (mul_le_mul_of_nonneg_left n1 hL0)
  have hLd : 0 ≤ L * d := by positivity
  have hsLd : s * (L * d) ≤ 1 * (L * d) := mul_le_mul_of_nonneg_right hs1 hLd
  have hD2 : D ≤ 2 * (L * d) := by linarith
  refine ⟨hD2, ?_⟩
  have hw : (1 - 2 * s) * d ^ 2 ≤ w ^ 2 := by
    have h4 : 0 ≤ (1 - s) * d := mul_nonneg (by linarith) hd
    have h5 : ((1 - s) * d) ^ 2 ≤ w ^ 2 := pow_le_pow_left₀ h4 n2 2
    nlinarith [sq_nonneg (s * d)]
  have hq : q * D ≤ (s * d) * (2 * (L * d)) := mul_le_mul hs hD2 hD0 (by positivity)
  have hμw := mul_le_mul_of_nonneg_left hw hμ.le
  have hsd : 0 ≤ s * d ^ 2 := by positivity
  have hμs := mul_le_mul_of_nonneg_right hμL hsd
  nlinarith

/-- A step `x + h Q` whose slopes contract. -/
theorem step_contract {x y p q : V} {h d : ℝ} (h0 : 0 ≤ h) (hμ : 0 < μ) (hμL : μ ≤ L) (hh : 20 * L ^ 2 * h ≤ μ)
    (hd : ‖x - y‖ = d) (hn : ‖p - q‖ ≤ 2 * (L * d)) (hi : inner ℝ (x - y) (p - q) ≤ (-μ + 8 * h * L ^ 2) * d ^ 2) :
    ‖(x + h • p) - (y + h • q)‖ ≤ (1 - μ * h / 2) * ‖x - y‖ := by
  have e1 : (x + h • p) - (y + h • q) = (x - y) + h • (p - q) := by rw [smul_sub]; abel
  have e2 : ‖(x - y) + h • (p - q)‖ ^ 2 = ‖x - y‖ ^ 2 + 2 * (h * inner ℝ (x - y) (p - q)) + (h * ‖p - q‖) ^ 2 := by
    rw [norm_add_sq_real, inner_smul_right, norm_smul, Real.norm_of_nonneg h0]
  rw [e1, hd]
  have hL0 : 0 < L := hμ.trans_le hμL
  have hd0 : 0 ≤ d := hd ▸ norm_nonneg _
  have hμh : μ * h ≤ 1 := by
    have h1 : μ * (20 * h) ≤ 1 := by
      have h2 : μ * μ * (20 * h) ≤ μ := by
        have h3 : μ * μ ≤ L ^ 2 := by nlinarith
        have h4 := mul_le_mul_of_nonneg_right h3 (show 0 ≤ 20 * h by positivity)
        linarith
      have h5 : μ * (μ * (20 * h)) ≤ μ * 1 := by linarith
      exact le_of_mul_le_mul_left h5 hμ
    nlinarith [mul_nonneg hμ.le h0]
  refine le_of_sq_le_sq ?_ (mul_nonneg (by linarith) hd0)
  rw [e2, hd]
  have a1 := mul_le_mul_of_nonneg_left hi h0
  have a2 : (h * ‖p - q‖) ^ 2 ≤ (h * (2 * (L * d))) ^ 2 := by
    have := mul_le_mul_of_nonneg_left hn h0
    exact pow_le_pow_left₀ (by positivity) this 2
  have a3 := mul_le_mul_of_nonneg_right hh (show 0 ≤ h * d ^ 2 by positivity)
  have a4 : 0 ≤ (μ * h * d) ^ 2 := sq_nonneg _
  nlinarith

theorem euler_contract (hL : ∀ t x y, ‖f t x - f t y‖ ≤ L * ‖x - y‖) (hc : Contracting μ f) (hμ : 0 < μ) (hμL : μ ≤ L)
    (x y : V) (t : ℝ) {h : ℝ} (h0 : 0 ≤ h) (hh : 20 * L ^ 2 * h ≤ μ) :
    ‖(x + h • f t x) - (y + h • f t y)‖ ≤ (1 - μ * h / 2) * ‖x - y‖ := by
  have hL0 : 0 ≤ L := hμ.le.trans hμL
  refine step_contract h0 hμ hμL hh rfl ((hL t x y).trans ?_) ((hc t x y).trans ?_)
  · have : 0 ≤ L * ‖x - y‖ := by positivity
    linarith
  · have : 0 ≤ 8 * h * L ^ 2 * ‖x - y‖ ^ 2 := by positivity
    linarith

/-- Small steps make the displacement of the stages small. -/
theorem small_step (hμ : 0 < μ) (hμL : μ ≤ L) {h : ℝ} (hh : 20 * L ^ 2 * h ≤ μ) : 2 * h * L ≤ 1 := by
  have hL0 : 0 < L := hμ.trans_le hμL
  have h1 : L * (20 * h * L) ≤ L * 1 := by nlinarith
  have h2 := le_of_mul_le_mul_left h1 hL0
  linarith

theorem midpoint_contract (hL : ∀ t x y, ‖f t x - f t y‖ ≤ L * ‖x - y‖) (hc : Contracting μ f) (hμ : 0 < μ) (hμL : μ ≤ L)
    (x y : V) (t : ℝ) {h : ℝ} (h0 : 0 ≤ h) (hh : 20 * L ^ 2 * h ≤ μ) :
    ‖(x + h • f (t + (1 / 2 : ℝ) * h) (x + ((1 / 2 : ℝ) * h) • f t x)) -
      (y + h • f (t + (1 / 2 : ℝ) * h) (y + ((1 / 2 : ℝ) * h) • f t y))‖ ≤ (1 - μ * h / 2) * ‖x - y‖ := by
  have hL0 : 0 ≤ L := hμ.le.trans hμL
  have hs := small_step hμ hμL hh
  obtain ⟨s1, s2⟩ := stage_contract hL hc hμ hμL (t + (1 / 2 : ℝ) * h) x y (((1 / 2 : ℝ) * h) • f t x)
    (((1 / 2 : ℝ) * h) • f t y) (s := 2 * h * L) (by positivity) hs (by
      rw [← smul_sub, norm_smul, Real.norm_of_nonneg (by positivity)]
      have h1 := mul_le_mul_of_nonneg_left (hL t x y) (show 0 ≤ 1 / 2 * h by positivity)
      have h2 : 0 ≤ h * L * ‖x - y‖ := by positivity
      linarith)
  exact step_contract h0 hμ hμL hh rfl s1 (s2.trans (le_of_eq (by ring)))

theorem rk4_contract (hL : ∀ t x y, ‖f t x - f t y‖ ≤ L * ‖x - y‖) (hc : Contracting μ f) (hμ : 0 < μ) (hμL : μ ≤ L)
    (x y : V) (t : ℝ) {h : ℝ} (h0 : 0 ≤ h) (hh : 20 * L ^ 2 * h ≤ μ) :
    ‖rk4Update f x t h - rk4Update f y t h‖ ≤ (1 - μ * h / 2) * ‖x - y‖ := by
  have hL0 : 0 ≤ L := hμ.le.trans hμL
  have hs := small_step hμ hμL hh
  have hs0 : 0 ≤ 2 * h * L := by positivity
  have hLd : 0 ≤ L * ‖x - y‖ := by positivity
  -- a stage whose argument moves by `c h` times slopes at most `2 L ‖x - y‖` apart
  have next : ∀ (τ c : ℝ) (p q : V), 0 ≤ c → c ≤ h → ‖p - q‖ ≤ 2 * (L * ‖x - y‖) →
      ‖f τ (x + c • p) - f τ (y + c • q)‖ ≤ 2 * (L * ‖x - y‖) ∧
        inner ℝ (x - y) (f τ (x + c • p) - f τ (y + c • q)) ≤ (-μ + 4 * (2 * h * L) * L) * ‖x - y‖ ^ 2 := by
    intro τ c p q hc0 hch hpq
    refine stage_contract hL hc hμ hμL τ x y (c • p) (c • q) hs0 hs ?_
    rw [← smul_sub, norm_smul, Real.norm_of_nonneg hc0]
    refine (mul_le_mul hch hpq (norm_nonneg _) h0).trans (le_of_eq ?_)
    ring
  rw [rk4_rkT, rk4_rkT]
  simp only [rkStagesT, comb, List.nil_append, List.cons_append, zero_mul, zero_smul, zero_add, add_zero, smul_zero, smul_add,
    smul_smul, mul_one]
  have k1 : ‖f t x - f t y‖ ≤ 2 * (L * ‖x - y‖) := (hL t x y).trans (by linarith)
  have i1 : inner ℝ (x - y) (f t x - f t y) ≤ (-μ + 4 * (2 * h * L) * L) * ‖x - y‖ ^ 2 := by
    refine (hc t x y).trans ?_
    have : 0 ≤ 4 * (2 * h * L) * L * ‖x - y‖ ^ 2 := by positivity
    linarith
  generalize f t x = p1 at k1 i1 ⊢
  generalize f t y = q1 at k1 i1 ⊢
  obtain ⟨k2, i2⟩ := next t (h * (1 / 2)) p1 q1 (by positivity) (by linarith) k1
  generalize f t (x + (h * (1 / 2)) • p1) = p2 at k2 i2 ⊢
  generalize f t (y + (h * (1 / 2)) • q1) = q2 at k2 i2 ⊢
  obtain ⟨k3, i3⟩ := next (t + 1 / 2 * h) (h * (1 / 2)) p2 q2 (by positivity) (by linarith) k2
  generalize f (t + 1 / 2 * h) (x + (h * (1 / 2)) • p2) = p3 at k3 i3 ⊢
  generalize f (t + 1 / 2 * h) (y + (h * (1 / 2)) • q2) = q3 at k3 i3 ⊢
  obtain ⟨k4, i4⟩ := next (t + 1 / 2 * h) h p3 q3 h0 le_rfl k3
  generalize f (t + 1 / 2 * h) (x + h • p3) = p4 at k4 i4 ⊢
  generalize f (t + 1 / 2 * h) (y + h • q3) = q4 at k4 i4 ⊢
  have key := step_contract (x := x) (y := y) (p := (1 / 6 : ℝ) • p1 + (1 / 3 : ℝ) • p2 + (1 / 3 : ℝ) • p3 + (1 / 6 : ℝ) • p4)
    (q := (1 / 6 : ℝ) • q1 + (1 / 3 : ℝ) • q2 + (1 / 3 : ℝ) • q3 + (1 / 6 : ℝ) • q4) h0 hμ hμL hh rfl
  have e3 : (1 / 6 : ℝ) • p1 + (1 / 3 : ℝ) • p2 + (1 / 3 : ℝ) • p3 + (1 / 6 : ℝ) • p4 -
      ((1 / 6 : ℝ) • q1 + (1 / 3 : ℝ) • q2 + (1 / 3 : ℝ) • q3 + (1 / 6 : ℝ) • q4) =
      (1 / 6 : ℝ) • (p1 - q1) + (1 / 3 : ℝ) • (p2 - q2) + (1 / 3 : ℝ) • (p3 - q3) + (1 / 6 : ℝ) • (p4 - q4) := by
    simp only [smul_sub]; abel
  rw [e3] at key
  have key := key (by
      refine (norm_add₄_le).trans ?_
      simp only [norm_smul]
      rw [Real.norm_of_nonneg (show (0 : ℝ) ≤ 1 / 6 by norm_num), Real.norm_of_nonneg (show (0 : ℝ) ≤ 1 / 3 by norm_num)]
      linarith) (by
      rw [inner_add_right, inner_add_right, inner_add_right, inner_smul_right, inner_smul_right, inner_smul_right,
        inner_smul_right]
      have e : (-μ + 4 * (2 * h * L) * L) = -μ + 8 * h * L ^ 2 := by ring
      rw [e] at i1 i2 i3 i4
      linarith)
  refine le_trans (le_of_eq ?_) key
  congr 1
  simp only [smul_add, smul_smul]
  abel_nf

/-- The step of the methods, and its contraction. -/
theorem ExplicitMethod.contract {solver : Solver (Except PyErr) ℝ V A} {p : ℕ} (hm : ExplicitMethod V A solver p) (args : A)
    (hL : ∀ t x y, ‖f t x - f t y‖ ≤ L * ‖x - y‖) (hc : Contracting μ f) (hμ : 0 < μ) (hμL : μ ≤ L) :
    ∃ φ, SteppedBy solver f args φ ∧ (∀ x y t h, 0 ≤ h → 20 * L ^ 2 * h ≤ μ →
      ‖φ x t h - φ y t h‖ ≤ (1 - μ * h / 2) * ‖x - y‖) ∧ ∀ z, (∀ t, f t z = 0) → ∀ t h, φ z t h = z := by
  cases hm with
  | euler =>
    exact ⟨_, euler_steppedBy f args, fun x y t h h0 hh => euler_contract hL hc hμ hμL x y t h0 hh,
      fun z hz t h => by simp [hz]⟩
  | midpoint =>
    exact ⟨_, midpoint_steppedBy f args, fun x y t h h0 hh => midpoint_contract hL hc hμ hμL x y t h0 hh,
      fun z hz t h => by simp [hz]⟩
  | rk4 =>
    exact ⟨_, rk4_steppedBy f args, fun x y t h h0 hh => rk4_contract hL hc hμ hμL x y t h0 hh,
      fun z hz t h => by rw [rk4_rkT]; simp [rkStagesT, comb, hz]⟩

end stages

theorem exp_step {μ g τ : ℝ} : (1 - μ * g / 2) * Real.exp (-(μ * τ / 2)) ≤ Real.exp (-(μ * (τ + g) / 2)) := by
  have h1 := Real.add_one_le_exp (-(μ * g / 2))
  have h2 : Real.exp (-(μ * (τ + g) / 2)) = Real.exp (-(μ * g / 2)) * Real.exp (-(μ * τ / 2)) := by
    rw [← Real.exp_add]; ring_nf
  rw [h2]
  exact mul_le_mul_of_nonneg_right (by linarith) (Real.exp_nonneg _)

/-- A sequence over an increasing grid whose distance to a reference contracts in each step up to `η` times the gap. -/
theorem contracting_error {φ : V → ℝ → ℝ → V} {y : ℝ → V} {μ η : ℝ} (hμ : 0 < μ) {x0 : V} {t0 : ℝ} {rest : List ℝ}
    {sol : List V} (htraj : IsTrajectory φ x0 (t0 :: rest) sol)
    (hstep : ∀ (k : ℕ) t t' x, (t0 :: rest)[k]? = some t → (t0 :: rest)[k + 1]? = some t' →
      0 ≤ 1 - μ * (t' - t) / 2 ∧ ‖φ x t (t' - t) - y t'‖ ≤ (1 - μ * (t' - t) / 2) * ‖x - y t‖ + η * (t' - t)) :
    ∀ (k : ℕ) t x, (t0 :: rest)[k]? = some t → sol[k]? = some x → 0 ≤ η →
      ‖x - y t‖ ≤ Real.exp (-(μ * (t - t0) / 2)) * ‖x0 - y t0‖ + 2 * η / μ := by
  intro k
  induction k with
  | zero =>
    intro t x ht hx hη
    rw [htraj.start] at hx
    simp only [List.getElem?_cons_zero, Option.some.injEq] at ht hx
    subst ht hx
    have : 0 ≤ 2 * η / μ := by positivity
    simpa using this
  | succ k ih =>
    intro t' x' ht' hx' hη
    have hk : k + 1 < (t0 :: rest).length := (List.getElem?_eq_some_iff.1 ht').1
    obtain ⟨t, ht⟩ : ∃ t, (t0 :: rest)[k]? = some t := ⟨_, List.getElem?_eq_getElem (by omega)⟩
    obtain ⟨x, hx⟩ : ∃ x, sol[k]? = some x := ⟨_, List.getElem?_eq_getElem (by rw [htraj.length_eq]; omega)⟩
    have hnext := htraj.next k t t' x ht ht' hx
    rw [hx'] at hnext
    cases hnext
    obtain ⟨h0, h1⟩ := hstep k t t' x ht ht'
    have h2 := mul_le_mul_of_nonneg_left (ih t x ht hx hη) h0
    have h3 := exp_step (μ := μ) (g := t' - t) (τ := t - t0)
    have e : t - t0 + (t' - t) = t' - t0 := by ring
    rw [e] at h3
    have h4 := mul_le_mul_of_nonneg_right h3 (norm_nonneg (x0 - y t0))
    have h5 : (1 - μ * (t' - t) / 2) * (2 * η / μ) + η * (t' - t) = 2 * η / μ := by field_simp; ring
    calc _ ≤ _ := h1
      _ ≤ _ := add_le_add h2 le_rfl
      _ ≤ _ := by linarith

section runs

variable {f : ℝ → V → V} {L μ : ℝ} {solver : Solver (Except PyErr) ℝ V A} {p : ℕ} {t0 t1 : ℝ} {rest : List ℝ}

theorem grid_gap (hmono : (t0 :: t1 :: rest).Pairwise (· < ·)) {k : ℕ} {t t' : ℝ} (hk : (t0 :: t1 :: rest)[k]? = some t)
    (hk' : (t0 :: t1 :: rest)[k + 1]? = some t') : 0 ≤ t' - t := by
  obtain ⟨h1, rfl⟩ := List.getElem?_eq_some_iff.1 hk
  obtain ⟨h2, rfl⟩ := List.getElem?_eq_some_iff.1 hk'
  exact sub_nonneg.2 (List.pairwise_iff_getElem.1 hmono k (k + 1) h1 h2 (by omega)).le

theorem contract_factor (hμ : 0 < μ) (hμL : μ ≤ L) {g : ℝ} (hg0 : 0 ≤ g) (hg : 20 * L ^ 2 * g ≤ μ) : 0 ≤ 1 - μ * g / 2 := by
  have hs := small_step hμ hμL hg
  have := mul_le_mul_of_nonneg_right hμL hg0
  linarith

/-- **C155.** Equal grids, different initial states: on a field that contracts at rate `μ` with Lipschitz constant `L`, and gaps at
most `μ / (20 L²)`, the integrations with `euler`, `midpoint` or `rk4` approach each other at rate `μ / 2`, for all times. -/
theorem C155_contraction (hm : ExplicitMethod V A solver p) (args : A) (hL : ∀ t x y, ‖f t x - f t y‖ ≤ L * ‖x - y‖)
    (hc : Contracting μ f) (hμ : 0 < μ) (hμL : μ ≤ L) (hmono : (t0 :: t1 :: rest).Pairwise (· < ·))
    (hgap : ∀ (k : ℕ) (t t' : ℝ), (t0 :: t1 :: rest)[k]? = some t → (t0 :: t1 :: rest)[k + 1]? = some t' →
      20 * L ^ 2 * (t' - t) ≤ μ) (hsep : Separated (t0 :: t1 :: rest)) (x x' : V) :
    ∃ sol sol', odeintFixed (pureField f) x (t0 :: t1 :: rest) solver [] args = .ok (t0 :: t1 :: rest, sol) ∧
      odeintFixed (pureField f) x' (t0 :: t1 :: rest) solver [] args = .ok (t0 :: t1 :: rest, sol') ∧
      sol.length = (t0 :: t1 :: rest).length ∧ sol'.length = (t0 :: t1 :: rest).length ∧
      ∀ (k : ℕ) t z z', (t0 :: t1 :: rest)[k]? = some t → sol[k]? = some z → sol'[k]? = some z' →
        ‖z - z'‖ ≤ Real.exp (-(μ * (t - t0) / 2)) * ‖x - x'‖ := by
  obtain ⟨φ, hs, hφ, -⟩ := hm.contract args hL hc hμ hμL
  have hdir : t0 ≤ t1 := ((List.pairwise_cons.1 hmono).1 t1 (by simp)).le
  obtain ⟨sol, h1, tr⟩ := C12_trajectory hs x t0 t1 rest hdir hsep
  obtain ⟨sol', h1', tr'⟩ := C12_trajectory hs x' t0 t1 rest hdir hsep
  refine ⟨sol, sol', h1, h1', tr.length_eq, tr'.length_eq, ?_⟩
  intro k
  induction k with
  | zero =>
    intro t z z' ht hz hz'
    rw [tr.start] at hz
    rw [tr'.start] at hz'
    simp only [List.getElem?_cons_zero, Option.some.injEq] at ht hz hz'
    subst ht hz hz'
    simp
  | succ k ih =>
    intro t' w w' ht' hw hw'
    have hk : k + 1 < (t0 :: t1 :: rest).length := (List.getElem?_eq_some_iff.1 ht').1
    obtain ⟨t, ht⟩ : ∃ t, (t0 :: t1 :: rest)[k]? = some t := ⟨_, List.getElem?_eq_getElem (by omega)⟩
    obtain ⟨z, hz⟩ : ∃ z, sol[k]? = some z := ⟨_, List.getElem?_eq_getElem (by rw [tr.length_eq]; omega)⟩
    obtain ⟨z', hz'⟩ : ∃ z', sol'[k]? = some z' := ⟨_, List.getElem?_eq_getElem (by rw [tr'.length_eq]; omega)⟩
    have n1 := tr.next k t t' z ht ht' hz
    have n2 := tr'.next k t t' z' ht ht' hz'
    rw [hw] at n1
    rw [hw'] at n2
    cases n1
    cases n2
    have hg0 := grid_gap hmono ht ht'
    have hg := hgap k t t' ht ht'
    refine (hφ z z' t (t' - t) hg0 hg).trans ?_
    refine (mul_le_mul_of_nonneg_left (ih t z z' ht hz hz') (contract_factor hμ hμL hg0 hg)).trans ?_
    rw [← mul_assoc]
    have h3 := exp_step (μ := μ) (g := t' - t) (τ := t - t0)
    have e : t - t0 + (t' - t) = t' - t0 := by ring
    rw [e] at h3
    exact mul_le_mul_of_nonneg_right h3 (norm_nonneg _)

/-- **C155.** The integrations approach an equilibrium of the field at rate `μ / 2`. -/
theorem C155_equilibrium (hm : ExplicitMethod V A solver p) (args : A) (hL : ∀ t x y, ‖f t x - f t y‖ ≤ L * ‖x - y‖)
    (hc : Contracting μ f) (hμ : 0 < μ) (hμL : μ ≤ L) (hmono : (t0 :: t1 :: rest).Pairwise (· < ·))
    (hgap : ∀ (k : ℕ) (t t' : ℝ), (t0 :: t1 :: rest)[k]? = some t → (t0 :: t1 :: rest)[k + 1]? = some t' →
      20 * L ^ 2 * (t' - t) ≤ μ) (hsep : Separated (t0 :: t1 :: rest)) (x z : V) (hz : ∀ t, f t z = 0) :
    ∃ sol, odeintFixed (pureField f) x (t0 :: t1 :: rest) solver [] args = .ok (t0 :: t1 :: rest, sol) ∧
      sol.length = (t0 :: t1 :: rest).length ∧
      ∀ (k : ℕ) t w, (t0 :: t1 :: rest)[k]? = some t → sol[k]? = some w →
        ‖w - z‖ ≤ Real.exp (-(μ * (t - t0) / 2)) * ‖x - z‖ := by
  obtain ⟨φ, hs, hφ, hfix⟩ := hm.contract args hL hc hμ hμL
  have hdir : t0 ≤ t1 := ((List.pairwise_cons.1 hmono).1 t1 (by simp)).le
  obtain ⟨sol, h1, tr⟩ := C12_trajectory hs x t0 t1 rest hdir hsep
  refine ⟨sol, h1, tr.length_eq, fun k t w ht hw => ?_⟩
  have := contracting_error (y := fun _ => z) (η := 0) hμ tr (fun k t t' x ht ht' => by
    have hg0 := grid_gap hmono ht ht'
    have hg := hgap k t t' ht ht'
    refine ⟨contract_factor hμ hμL hg0 hg, ?_⟩
    have h2 := hφ x z t (t' - t) hg0 hg
    rw [hfix z hz] at h2
    simpa using h2) k t w ht hw le_rfl
  simpa using this

end runs

/-- For autonomous fields the error of one step does not depend on the time. -/
theorem local_error_shift {E : Type} [NormedAddCommGroup E] [NormedSpace ℝ E] {F : E → E} {R : ℝ} {p : ℕ} (φ : E → ℝ → ℝ → E)
    (hφ : ∀ x t h, φ x t h = φ x 0 h) (hone : OneStepNear p φ (fun _ x => F x) R 0 1) :
    ∃ C δ, 0 ≤ C ∧ 0 < δ ∧ ∀ (y : ℝ → E) (t h : ℝ), 0 ≤ h → h ≤ δ →
      (∀ s ∈ Icc t (t + h), HasDerivWithinAt y (F (y s)) (Icc t (t + h)) s ∧ ‖y s‖ ≤ R) →
      ‖φ (y t) t h - y (t + h)‖ ≤ C * h ^ (p + 1) := by
  obtain ⟨C, Λ, δ, hC, -, hδ, H⟩ := hone
  refine ⟨C, min δ 1, hC, lt_min hδ one_pos, fun y t h h0 hh hy => ?_⟩
  have := H (fun s => y (t + s)) 0 h (y t) le_rfl h0 (hh.trans (min_le_left _ _))
    (by rw [zero_add]; exact hh.trans (min_le_right _ _))
    (fun s hs => by
      have hm : t + s ∈ Icc t (t + h) := ⟨by linarith [hs.1], by linarith [hs.2]⟩
      refine ⟨?_, (hy _ hm).2⟩
      have h1 := (hy _ hm).1.scomp s ((hasDerivAt_id s).const_add t).hasDerivWithinAt (s := Icc 0 (0 + h))
        (fun u hu => ⟨by linarith [hu.1], by linarith [hu.2]⟩)
      simpa [Function.comp_def] using h1)
    (by simp)
  rw [hφ]
  simpa using this

section accuracy

variable [FiniteDimensional ℝ V]

/-- The error of one step of the methods. -/
theorem ExplicitMethod.local_error {solver : Solver (Except PyErr) ℝ V A} {p : ℕ} (hm : ExplicitMethod V A solver p) (args : A)
    {F : V → V} (hF : ContDiff ℝ p F) (R : ℝ) :
    ∃ φ, SteppedBy solver (fun _ x => F x) args φ ∧ ∃ C δ, 0 ≤ C ∧ 0 < δ ∧ ∀ (y : ℝ → V) (t h : ℝ), 0 ≤ h → h ≤ δ →
      (∀ s ∈ Icc t (t + h), HasDerivWithinAt y (F (y s)) (Icc t (t + h)) s ∧ ‖y s‖ ≤ R) →
      ‖φ (y t) t h - y (t + h)‖ ≤ C * h ^ (p + 1) := by
  cases hm with
  | euler =>
    exact ⟨_, euler_steppedBy _ args, local_error_shift _ (fun _ _ _ => rfl)
      (euler_one_step (by exact_mod_cast hF.comp contDiff_snd) 0 1 R)⟩
  | midpoint =>
    exact ⟨_, midpoint_steppedBy _ args, local_error_shift _ (fun _ _ _ => rfl)
      (midpoint_one_step (by exact_mod_cast hF.comp contDiff_snd) 0 1 R)⟩
  | rk4 =>
    exact ⟨_, rk4_steppedBy _ args, local_error_shift _ (fun x t h => by rw [rk4_rkT, rk4_rkT]; rfl)
      (rk4_one_step (by exact_mod_cast hF) 0 1 R)⟩

/-- The run on a separated grid. -/
theorem odeintFixed_gridStates {W : Type} [AddCommGroup W] {f : ℝ → W → W} {solver : Solver (Except PyErr) ℝ W A} {args : A}
    {φ : W → ℝ → ℝ → W} (hs : SteppedBy solver f args φ) (x : W) (t0 t1 : ℝ) (rest : List ℝ) (hdir : t0 ≤ t1)
    (hsep : Separated (t0 :: t1 :: rest)) : odeintFixed (pureField f) x (t0 :: t1 :: rest) solver [] args =
      .ok (t0 :: t1 :: rest, gridStates φ x (t0 :: t1 :: rest)) := by
  rw [odeintFixed_forward _ _ _ hdir, fixedOdeint_default _ (pure ()) φ hs.tick x _ (by simp) hsep, tickN_pure]
  rfl

/-- **C155.** Accuracy for all times: for an autonomous field with `p` continuous derivatives, Lipschitz constant `L` and
contraction rate `μ`, there are `C` and `δ > 0`, depending on a bound `R` only, such that on every grid, however long, with gaps
at most `h ≤ δ` and from every initial state the states stay within `C h^p` of every solution bounded by `R`, up to the initial
distance, which decays like `exp (-μ (t - t0) / 2)`. The bound holds for the steps of the solver on all these grids; `odeint` returns
them when no two times are close. -/
theorem C155_accuracy {solver : Solver (Except PyErr) ℝ V A} {p : ℕ} (hm : ExplicitMethod V A solver p) (args : A)
    {F : V → V} (hF : ContDiff ℝ p F) {L μ : ℝ} (hL : ∀ x y, ‖F x - F y‖ ≤ L * ‖x - y‖)
    (hc : ∀ x y, inner ℝ (x - y) (F x - F y) ≤ -μ * ‖x - y‖ ^ 2) (hμ : 0 < μ) (hμL : μ ≤ L) (R : ℝ) :
    ∃ C δ, 0 < δ ∧ ∀ (y : ℝ → V) (t0 t1 T : ℝ) (rest : List ℝ) (h : ℝ) (x0 : V), h ≤ δ →
      (∀ t ∈ Icc t0 T, HasDerivWithinAt y (F (y t)) (Icc t0 T) t) → (∀ t ∈ Icc t0 T, ‖y t‖ ≤ R) →
      (t0 :: t1 :: rest).Pairwise (· < ·) → (∀ t ∈ t0 :: t1 :: rest, t ≤ T) →
      (∀ (k : ℕ) (t t' : ℝ), (t0 :: t1 :: rest)[k]? = some t → (t0 :: t1 :: rest)[k + 1]? = some t' → t' - t ≤ h) →
      ∃ φ sol, SteppedBy solver (fun _ x => F x) args φ ∧ IsTrajectory φ x0 (t0 :: t1 :: rest) sol ∧
        (Separated (t0 :: t1 :: rest) →
          odeintFixed (pureField fun _ x => F x) x0 (t0 :: t1 :: rest) solver [] args = .ok (t0 :: t1 :: rest, sol)) ∧
        ∀ (k : ℕ) t x, (t0 :: t1 :: rest)[k]? = some t → sol[k]? = some x →
          ‖x - y t‖ ≤ Real.exp (-(μ * (t - t0) / 2)) * ‖x0 - y t0‖ + C * h ^ p := by
  obtain ⟨φ, hs, C, δ, hC, hδ, hloc⟩ := hm.local_error args hF R
  obtain ⟨ψ, hs', hφ, -⟩ := hm.contract (f := fun _ x => F x) args (fun _ => hL) (fun _ => hc) hμ hμL
  obtain rfl : ψ = φ := by
    funext x t dt
    obtain ⟨_, _, a⟩ := hs' x t dt
    obtain ⟨_, _, b⟩ := hs x t dt
    have := a.symm.trans b
    injection this with this
    injection this
  have hL0 : 0 < L := hμ.trans_le hμL
  refine ⟨2 * C / μ, min δ (μ / (20 * L ^ 2)), lt_min hδ (by positivity), ?_⟩
  intro y t0 t1 T rest h x0 hh hy hyR hmono hT hgap
  have hdir : t0 < t1 := (List.pairwise_cons.1 hmono).1 t1 (by simp)
  have h0 : 0 ≤ h := by linarith [hgap 0 t0 t1 (by simp) (by simp)]
  have hhL : 20 * L ^ 2 * h ≤ μ := by
    have := hh.trans (min_le_right _ _)
    rw [le_div_iff₀ (by positivity)] at this
    linarith
  have tr := gridStates_isTrajectory ψ x0 (t0 :: t1 :: rest) (by simp)
  refine ⟨ψ, _, hs, tr, odeintFixed_gridStates hs x0 t0 t1 rest hdir.le, fun k t x ht hx => ?_⟩
  have := contracting_error (y := y) (η := C * h ^ p) hμ tr (fun k t t' x ht ht' => by
    have hg0 := grid_gap hmono ht ht'
    have hgh := hgap k t t' ht ht'
    have hg : 20 * L ^ 2 * (t' - t) ≤ μ := (mul_le_mul_of_nonneg_left hgh (by positivity)).trans hhL
    refine ⟨contract_factor hμ hμL hg0 hg, ?_⟩
    have h2 := hφ x (y t) t (t' - t) hg0 hg
    have ht0 : t0 ≤ t := by
      rcases List.mem_cons.1 (List.mem_of_getElem? ht) with rfl | hmem
      · exact le_rfl
      · exact ((List.pairwise_cons.1 hmono).1 t hmem).le
    have htT := hT t' (List.mem_of_getElem? ht')
    have e : t + (t' - t) = t' := by ring
    have hsub : Icc t (t + (t' - t)) ⊆ Icc t0 T := Icc_subset_Icc ht0 (by rw [e]; exact htT)
    have h3 := hloc y t (t' - t) hg0 (hgh.trans (hh.trans (min_le_left _ _)))
      (fun s hs => ⟨(hy s (hsub hs)).mono hsub, hyR s (hsub hs)⟩)
    rw [e] at h3
    have h4 : C * (t' - t) ^ (p + 1) ≤ C * h ^ p * (t' - t) := by
      rw [pow_succ, ← mul_assoc]
      gcongr
    exact (norm_sub_le_norm_sub_add_norm_sub _ _ _).trans (add_le_add h2 (h3.trans h4))) k t x ht hx (by positivity)
  refine this.trans (le_of_eq ?_)
  ring

end accuracy

/-- Non-vacuity: `x' = -x` contracts at rate 1 with Lipschitz constant 1, and `exp (-t)` is a solution bounded by 1 on every
interval `[0, T]`. -/
example : ∃ C δ : ℝ, 0 < δ ∧ ∀ (t1 T : ℝ) (rest : List ℝ) (h : ℝ), h ≤ δ →
    ((0 : ℝ) :: t1 :: rest).Pairwise (· < ·) → (∀ t ∈ 0 :: t1 :: rest, t ≤ T) →
    (∀ (k : ℕ) (t t' : ℝ), (0 :: t1 :: rest)[k]? = some t → (0 :: t1 :: rest)[k + 1]? = some t' → t' - t ≤ h) →
    ∃ φ sol, SteppedBy (rk4Solver (Except PyErr) ℝ ℝ Unit) (fun _ x => -x) () φ ∧ IsTrajectory φ 1 (0 :: t1 :: rest) sol ∧
      (Separated (0 :: t1 :: rest) → odeintFixed (pureField fun _ x => -x) (1 : ℝ) (0 :: t1 :: rest)
        (rk4Solver (Except PyErr) ℝ ℝ Unit) [] () = .ok (0 :: t1 :: rest, sol)) ∧
      ∀ (k : ℕ) t x, (0 :: t1 :: rest)[k]? = some t → sol[k]? = some x → |x - Real.exp (-t)| ≤ C * h ^ 4 := by
  obtain ⟨C, δ, hδ, H⟩ := C155_accuracy (V := ℝ) (A := Unit) .rk4 () (F := fun x => -x) contDiff_neg (L := 1) (μ := 1)
    (fun x y => by rw [neg_sub_neg, one_mul, norm_sub_rev])
    (fun x y => by
      rw [neg_sub_neg, ← neg_sub x y, inner_neg_right, real_inner_self_eq_norm_sq]
      simp) one_pos le_rfl 1
  refine ⟨C, δ, hδ, fun t1 T rest h hh hmono hT hgap => ?_⟩
  obtain ⟨φ, sol, h0, h1, h2, h3⟩ := H (fun t => Real.exp (-t)) 0 t1 T rest h 1 hh
    (fun t _ => by simpa using ((hasDerivAt_neg t).exp).hasDerivWithinAt)
    (fun t ht => by
      rw [Real.norm_of_nonneg (Real.exp_nonneg _)]
      exact Real.exp_le_one_iff.2 (by linarith [ht.1])) hmono hT hgap
  refine ⟨φ, sol, h0, h1, h2, fun k t x ht hx => ?_⟩
  have := h3 k t x ht hx
  simpa using this

/-- Non-vacuity of the contraction: two steps of length `1/20` on `x' = -x`. -/
example : ∃ sol sol', odeintFixed (pureField fun _ x => -x) (1 : ℝ) [0, 1 / 20, 1 / 10] (midpointSolver (Except PyErr) ℝ ℝ Unit)
      [] () = .ok ([0, 1 / 20, 1 / 10], sol) ∧
    odeintFixed (pureField fun _ x => -x) (3 : ℝ) [0, 1 / 20, 1 / 10] (midpointSolver (Except PyErr) ℝ ℝ Unit) [] () =
      .ok ([0, 1 / 20, 1 / 10], sol') := by
  obtain ⟨sol, sol', h1, h2, -⟩ := C155_contraction (V := ℝ) (A := Unit) (f := fun _ x => -x) (L := 1) (μ := 1) .midpoint ()
    (t0 := 0) (t1 := 1 / 20) (rest := [1 / 10])
    (fun t x y => by rw [neg_sub_neg, one_mul, norm_sub_rev])
    (fun t x y => by
      rw [neg_sub_neg, ← neg_sub x y, inner_neg_right, real_inner_self_eq_norm_sq]
      simp) one_pos le_rfl (by norm_num)
    (by
      intro k t t' hk hk'
      match k with
      | 0 => simp at hk hk'; subst hk hk'; norm_num
      | 1 => simp at hk hk'; subst hk hk'; norm_num
      | k + 2 => simp at hk')
    (by
      simp only [Separated, Close, List.pairwise_cons, List.mem_cons, List.not_mem_nil, or_false, forall_eq_or_imp, forall_eq,
        List.Pairwise.nil, IsEmpty.forall_iff, implies_true, and_true]
      norm_num [abs_of_pos, abs_of_neg]) 1 3
  exact ⟨sol, sol', h1, h2⟩

end Torchdyn
