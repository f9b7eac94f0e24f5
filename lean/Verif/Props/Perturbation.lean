import Verif.Props.Hyper
import Mathlib.Analysis.SpecialFunctions.Trigonometric.Bounds

/-!
Property C104: how an integration with a fixed-step solver depends on its data. The initial state, the vector field and
the arithmetic of the solver are perturbed at once; the two trajectories stay close, with explicit constants.
-/

set_option linter.unusedSectionVars false
set_option linter.unusedSimpArgs false

namespace Torchdyn

open Set Spec

section step

variable {V : Type} [NormedAddCommGroup V] [NormedSpace ℝ V] {A : Type}

/-- `Φ f` is the step of a method on the field `f`. For a field `f` with Lipschitz constant `L` and any field `f'` within
`η` of it, one step of size `h ≥ 0` amplifies the distance of the states by at most `exp (L h)`, and the difference of
the fields contributes at most `h η exp (L h)`. -/
def StableStep (Φ : (ℝ → V → V) → V → ℝ → ℝ → V) : Prop :=
  ∀ (f f' : ℝ → V → V) (L η : ℝ), 0 ≤ L → 0 ≤ η → (∀ t x x', ‖f t x - f t x'‖ ≤ L * ‖x - x'‖) →
    (∀ t x, ‖f' t x - f t x‖ ≤ η) → ∀ (x x' : V) (t h : ℝ), 0 ≤ h →
      ‖Φ f' x' t h - Φ f x t h‖ ≤ Real.exp (L * h) * (‖x' - x‖ + h * η)

/-- One evaluation of the two fields at states that differ by at most `d`. -/
theorem field_diff {f f' : ℝ → V → V} {L η : ℝ} (hL : 0 ≤ L) (hLip : ∀ t x x', ‖f t x - f t x'‖ ≤ L * ‖x - x'‖)
    (hη : ∀ t x, ‖f' t x - f t x‖ ≤ η) {x x' : V} {d : ℝ} (hd : ‖x' - x‖ ≤ d) (t : ℝ) :
    ‖f' t x' - f t x‖ ≤ η + L * d :=
  calc ‖f' t x' - f t x‖ ≤ ‖f' t x' - f t x'‖ + ‖f t x' - f t x‖ := norm_sub_le_norm_sub_add_norm_sub _ _ _
    _ ≤ η + L * d := add_le_add (hη t x') ((hLip t x' x).trans (mul_le_mul_of_nonneg_left hd hL))

/-- Adding `c` times a stage to the state. -/
theorem stage_diff {x x' k k' : V} {d e c : ℝ} (hc : 0 ≤ c) (hd : ‖x' - x‖ ≤ d) (he : ‖k' - k‖ ≤ e) :
    ‖(x' + c • k') - (x + c • k)‖ ≤ d + c * e := by
  have e1 : (x' + c • k') - (x + c • k) = (x' - x) + c • (k' - k) := by module
  rw [e1]
  refine (norm_add_le _ _).trans (add_le_add hd ?_)
  rw [norm_smul, Real.norm_of_nonneg hc]
  exact mul_le_mul_of_nonneg_left he hc

theorem exp_ge_four {z : ℝ} (hz : 0 ≤ z) : 1 + z + z ^ 2 / 2 + z ^ 3 / 6 + z ^ 4 / 24 ≤ Real.exp z := by
  have := Real.sum_le_exp_of_nonneg hz 5
  simp only [Finset.sum_range_succ, Finset.sum_range_zero, Nat.factorial, pow_zero, pow_one] at this
  norm_num at this
  linarith

theorem stable_euler : StableStep (V := V) (fun f x t h => x + h • f t x) := by
  intro f f' L η hL hη0 hLip hη x x' t h hh
  have hx : ‖x' - x‖ ≤ ‖x' - x‖ := le_rfl
  have h1 := field_diff hL hLip hη hx t
  refine (stage_diff hh le_rfl h1).trans ?_
  have hz : 0 ≤ L * h := mul_nonneg hL hh
  have he := exp_ge_four hz
  have p2 : 0 ≤ (L * h) ^ 2 := by positivity
  have p3 : 0 ≤ (L * h) ^ 3 := by positivity
  have p4 : 0 ≤ (L * h) ^ 4 := by positivity
  have hA : 1 + L * h ≤ Real.exp (L * h) := by linarith
  have hB : (1 : ℝ) ≤ Real.exp (L * h) := by linarith
  calc ‖x' - x‖ + h * (η + L * ‖x' - x‖) = (1 + L * h) * ‖x' - x‖ + 1 * (h * η) := by ring
    _ ≤ Real.exp (L * h) * ‖x' - x‖ + Real.exp (L * h) * (h * η) :=
        add_le_add (mul_le_mul_of_nonneg_right hA (norm_nonneg _)) (mul_le_mul_of_nonneg_right hB (by positivity))
    _ = _ := by ring

theorem stable_midpoint :
    StableStep (V := V) (fun f x t h => x + h • f (t + 1 / 2 * h) (x + (1 / 2 * h) • f t x)) := by
  intro f f' L η hL hη0 hLip hη x x' t h hh
  have hx : ‖x' - x‖ ≤ ‖x' - x‖ := le_rfl
  have h1 := field_diff hL hLip hη hx t
  have h2 := field_diff hL hLip hη (stage_diff (show (0 : ℝ) ≤ 1 / 2 * h by positivity) hx h1) (t + 1 / 2 * h)
  refine (stage_diff hh le_rfl h2).trans ?_
  have hz : 0 ≤ L * h := mul_nonneg hL hh
  have he := exp_ge_four hz
  have p2 : 0 ≤ (L * h) ^ 2 := by positivity
  have p3 : 0 ≤ (L * h) ^ 3 := by positivity
  have p4 : 0 ≤ (L * h) ^ 4 := by positivity
  have hA : 1 + L * h + (L * h) ^ 2 / 2 ≤ Real.exp (L * h) := by linarith
  have hB : 1 + L * h / 2 ≤ Real.exp (L * h) := by linarith
  calc ‖x' - x‖ + h * (η + L * (‖x' - x‖ + 1 / 2 * h * (η + L * ‖x' - x‖))) =
        (1 + L * h + (L * h) ^ 2 / 2) * ‖x' - x‖ + (1 + L * h / 2) * (h * η) := by ring
    _ ≤ Real.exp (L * h) * ‖x' - x‖ + Real.exp (L * h) * (h * η) :=
        add_le_add (mul_le_mul_of_nonneg_right hA (norm_nonneg _)) (mul_le_mul_of_nonneg_right hB (by positivity))
    _ = _ := by ring

theorem rk4_explicit (t h : ℝ) : ∃ s2 s3 s4 : ℝ, ∀ (g : ℝ → V → V) (y : V), rk4Update g y t h =
    y + (h * (1 / 6)) • g t y + (h * (1 / 3)) • g s2 (y + (h * (1 / 2)) • g t y) +
      (h * (1 / 3)) • g s3 (y + (h * (1 / 2)) • g s2 (y + (h * (1 / 2)) • g t y)) +
      (h * (1 / 6)) • g s4 (y + h • g s3 (y + (h * (1 / 2)) • g s2 (y + (h * (1 / 2)) • g t y))) := by
  refine ⟨t, t + 1 / 2 * h, t + 1 / 2 * h, fun g y => ?_⟩
  rw [rk4_rkT]
  simp only [rkStagesT, comb, List.nil_append, List.cons_append, smul_add, smul_smul, ← add_assoc, add_zero, smul_zero,
    zero_mul, zero_smul, mul_zero, mul_one, add_zero, zero_add]

theorem stable_rk4 : StableStep (V := V) rk4Update := by
  intro f f' L η hL hη0 hLip hη x x' t h hh
  obtain ⟨s2, s3, s4, hexp⟩ := rk4_explicit (V := V) t h
  rw [hexp, hexp]
  have hx : ‖x' - x‖ ≤ ‖x' - x‖ := le_rfl
  have c2 : (0 : ℝ) ≤ h * (1 / 2) := by positivity
  have c3 : (0 : ℝ) ≤ h * (1 / 3) := by positivity
  have c6 : (0 : ℝ) ≤ h * (1 / 6) := by positivity
  have h1 := field_diff hL hLip hη hx t
  have h2 := field_diff hL hLip hη (stage_diff c2 hx h1) s2
  have h3 := field_diff hL hLip hη (stage_diff c2 hx h2) s3
  have h4 := field_diff hL hLip hη (stage_diff hh hx h3) s4
  refine (stage_diff c6 (stage_diff c3 (stage_diff c3 (stage_diff c6 hx h1) h2) h3) h4).trans ?_
  have hz : 0 ≤ L * h := mul_nonneg hL hh
  have he := exp_ge_four hz
  have p2 : 0 ≤ (L * h) ^ 2 := by positivity
  have p3 : 0 ≤ (L * h) ^ 3 := by positivity
  have p4 : 0 ≤ (L * h) ^ 4 := by positivity
  have hB : 1 + L * h / 2 + (L * h) ^ 2 / 6 + (L * h) ^ 3 / 24 ≤ Real.exp (L * h) := by linarith
  generalize hD : ‖x' - x‖ = D at *
  have hD0 : 0 ≤ D := hD ▸ norm_nonneg _
  refine le_trans (le_of_eq ?_) (b := (1 + L * h + (L * h) ^ 2 / 2 + (L * h) ^ 3 / 6 + (L * h) ^ 4 / 24) * D +
    (1 + L * h / 2 + (L * h) ^ 2 / 6 + (L * h) ^ 3 / 24) * (h * η)) ?_
  · ring
  calc _ ≤ Real.exp (L * h) * D + Real.exp (L * h) * (h * η) :=
        add_le_add (mul_le_mul_of_nonneg_right he hD0) (mul_le_mul_of_nonneg_right hB (by positivity))
    _ = _ := by ring

end step

section global

variable {V : Type} [NormedAddCommGroup V] [NormedSpace ℝ V] {A : Type}

/-- Two trajectories on one grid: a stable method on the field `f`, and steps that stay within `ε` of the method on a field
`f'` that stays within `η` of `f`. -/
theorem trajectories_close {Φ : (ℝ → V → V) → V → ℝ → ℝ → V} (hΦ : StableStep Φ) {f f' : ℝ → V → V} {L η ε : ℝ}
    (hL : 0 ≤ L) (hη0 : 0 ≤ η) (hε : 0 ≤ ε) (hLip : ∀ t x x', ‖f t x - f t x'‖ ≤ L * ‖x - x'‖)
    (hη : ∀ t x, ‖f' t x - f t x‖ ≤ η) {ψ : V → ℝ → ℝ → V} {x x' : V} {t0 : ℝ} {rest : List ℝ} {sol sol' : List V}
    (hmono : (t0 :: rest).Pairwise (· ≤ ·))
    (hψ : ∀ (k : ℕ) (t t' : ℝ) (y : V), (t0 :: rest)[k]? = some t → (t0 :: rest)[k + 1]? = some t' →
      sol'[k]? = some y → ‖ψ y t (t' - t) - Φ f' y t (t' - t)‖ ≤ ε)
    (h : IsTrajectory (Φ f) x (t0 :: rest) sol) (h' : IsTrajectory ψ x' (t0 :: rest) sol') :
    ∀ (k : ℕ) (t : ℝ) (y y' : V), (t0 :: rest)[k]? = some t → sol[k]? = some y → sol'[k]? = some y' →
      ‖y' - y‖ ≤ (‖x' - x‖ + k * ε + (t - t0) * η) * Real.exp (L * (t - t0)) := by
  intro k
  induction k with
  | zero =>
    intro t y y' ht hy hy'
    rw [h.start] at hy
    rw [h'.start] at hy'
    simp only [List.getElem?_cons_zero, Option.some.injEq] at ht hy hy'
    subst ht hy hy'
    simp
  | succ k ih =>
    intro t' z z' ht' hz hz'
    have hk : k + 1 < (t0 :: rest).length := (List.getElem?_eq_some_iff.1 ht').1
    obtain ⟨t, ht⟩ : ∃ t, (t0 :: rest)[k]? = some t := ⟨_, List.getElem?_eq_getElem (by omega)⟩
    obtain ⟨y, hy⟩ : ∃ y, sol[k]? = some y := ⟨_, List.getElem?_eq_getElem (by rw [h.length_eq]; omega)⟩
    obtain ⟨y', hy'⟩ : ∃ y, sol'[k]? = some y := ⟨_, List.getElem?_eq_getElem (by rw [h'.length_eq]; omega)⟩
    have hn := h.next k t t' y ht ht' hy
    have hn' := h'.next k t t' y' ht ht' hy'
    rw [hz] at hn
    rw [hz'] at hn'
    cases hn
    cases hn'
    have h0t : t0 ≤ t := by
      have hm := List.mem_of_getElem? ht
      rw [List.pairwise_cons] at hmono
      rcases List.mem_cons.1 hm with rfl | hm
      · exact le_refl _
      · exact hmono.1 _ hm
    have htt' : t ≤ t' := by
      have := List.pairwise_iff_getElem.1 hmono k (k + 1) (by omega) hk (by omega)
      obtain ⟨_, rfl⟩ := List.getElem?_eq_some_iff.1 ht
      obtain ⟨_, rfl⟩ := List.getElem?_eq_some_iff.1 ht'
      exact this
    have hg0 : 0 ≤ t' - t := sub_nonneg.2 htt'
    have hI := ih t y y' ht hy hy'
    have h1 := hψ k t t' y' ht ht' hy'
    have h2 := hΦ f f' L η hL hη0 hLip hη y y' t (t' - t) hg0
    have htri : ‖ψ y' t (t' - t) - Φ f y t (t' - t)‖ ≤
        ‖ψ y' t (t' - t) - Φ f' y' t (t' - t)‖ + ‖Φ f' y' t (t' - t) - Φ f y t (t' - t)‖ :=
      norm_sub_le_norm_sub_add_norm_sub _ _ _
    have hE : Real.exp (L * (t' - t)) * Real.exp (L * (t - t0)) = Real.exp (L * (t' - t0)) := by
      rw [← Real.exp_add]; congr 1; ring
    have hE1 : 1 ≤ Real.exp (L * (t' - t0)) := Real.one_le_exp (mul_nonneg hL (by linarith))
    have hE2 : Real.exp (L * (t' - t)) ≤ Real.exp (L * (t' - t0)) :=
      Real.exp_le_exp.2 (mul_le_mul_of_nonneg_left (by linarith) hL)
    have hE0 : 0 ≤ Real.exp (L * (t' - t)) := (Real.exp_pos _).le
    calc ‖ψ y' t (t' - t) - Φ f y t (t' - t)‖ ≤ ε + Real.exp (L * (t' - t)) * (‖y' - y‖ + (t' - t) * η) := by linarith
      _ ≤ ε * Real.exp (L * (t' - t0)) + Real.exp (L * (t' - t)) *
            ((‖x' - x‖ + k * ε + (t - t0) * η) * Real.exp (L * (t - t0))) +
            Real.exp (L * (t' - t0)) * ((t' - t) * η) := by
          have a1 := mul_le_mul_of_nonneg_left hE1 hε
          have a2 := mul_le_mul_of_nonneg_left hI hE0
          have a3 := mul_le_mul_of_nonneg_right hE2 (mul_nonneg hg0 hη0)
          rw [mul_add]
          linarith
      _ = (‖x' - x‖ + (k + 1 : ℕ) * ε + (t' - t0) * η) * Real.exp (L * (t' - t0)) := by
          rw [show Real.exp (L * (t' - t)) * ((‖x' - x‖ + k * ε + (t - t0) * η) * Real.exp (L * (t - t0))) =
            (‖x' - x‖ + k * ε + (t - t0) * η) * (Real.exp (L * (t' - t)) * Real.exp (L * (t - t0))) by ring, hE]
          push_cast
          ring

/-- Two calls of `odeint` on one grid, one with `solver` on the field `f` from `x`, the other with `solver'` on the field
`f'` from `x'`: both return a state for each time point, and at the time point `t` of index `k` the two states differ by
at most `(‖x' - x‖ + k ε + (t - t0) η) exp (L (t - t0))`, provided `f` has Lipschitz constant `L`, `f'` stays within `η`
of `f`, and the steps that `solver'` takes stay within `ε` of those that `solver` takes on the field `f'`. -/
def StableSolver (solver : Solver (Except PyErr) ℝ V A) : Prop :=
  ∀ (solver' : Solver (Except PyErr) ℝ V A) (f f' : ℝ → V → V) (args args' : A) (φ' ψ : V → ℝ → ℝ → V) (L η ε : ℝ)
    (x x' : V) (t0 t1 : ℝ) (rest : List ℝ), 0 ≤ L → 0 ≤ η → 0 ≤ ε →
    (∀ t y y', ‖f t y - f t y'‖ ≤ L * ‖y - y'‖) → (∀ t y, ‖f' t y - f t y‖ ≤ η) →
    SteppedBy solver f' args φ' → SteppedBy solver' f' args' ψ →
    (t0 :: t1 :: rest).Pairwise (· ≤ ·) → Separated (t0 :: t1 :: rest) →
    ∃ sol sol', odeintFixed (pureField f) x (t0 :: t1 :: rest) solver [] args = .ok (t0 :: t1 :: rest, sol) ∧
      odeintFixed (pureField f') x' (t0 :: t1 :: rest) solver' [] args' = .ok (t0 :: t1 :: rest, sol') ∧
      sol.length = (t0 :: t1 :: rest).length ∧ sol'.length = (t0 :: t1 :: rest).length ∧
      ((∀ (k : ℕ) (t t' : ℝ) (y : V), (t0 :: t1 :: rest)[k]? = some t → (t0 :: t1 :: rest)[k + 1]? = some t' →
          sol'[k]? = some y → ‖ψ y t (t' - t) - φ' y t (t' - t)‖ ≤ ε) →
        ∀ (k : ℕ) (t : ℝ) (y y' : V), (t0 :: t1 :: rest)[k]? = some t → sol[k]? = some y → sol'[k]? = some y' →
          ‖y' - y‖ ≤ (‖x' - x‖ + k * ε + (t - t0) * η) * Real.exp (L * (t - t0)))

theorem stableSolver_of {Φ : (ℝ → V → V) → V → ℝ → ℝ → V} (hΦ : StableStep Φ) {solver : Solver (Except PyErr) ℝ V A}
    (hs : ∀ (f : ℝ → V → V) (args : A), SteppedBy solver f args (Φ f)) : StableSolver solver := by
  intro solver' f f' args args' φ' ψ L η ε x x' t0 t1 rest hL hη0 hε hLip hη hφ' hψ hmono hsep
  have h01 : t0 ≤ t1 := (List.pairwise_cons.1 hmono).1 t1 (by simp)
  obtain ⟨sol, hrun, htraj⟩ := C12_trajectory (hs f args) x t0 t1 rest h01 hsep
  obtain ⟨sol', hrun', htraj'⟩ := C12_trajectory hψ x' t0 t1 rest h01 hsep
  have heq : φ' = Φ f' := by
    funext y t h
    obtain ⟨k, e, h1⟩ := hφ' y t h
    obtain ⟨k', e', h2⟩ := hs f' args y t h
    rw [h1] at h2
    have := Except.ok.inj h2
    injection this
  subst heq
  exact ⟨sol, sol', hrun, hrun', htraj.length_eq, htraj'.length_eq, fun hstep =>
    trajectories_close hΦ hL hη0 hε hLip hη hmono hstep htraj htraj'⟩

/-- **C104.** `euler`, `midpoint` and `rk4` depend stably on the initial state, on the vector field and on the arithmetic
of the steps: an initial difference `d`, a change of the field by at most `η` (other weights, quantisation) and an error of
at most `ε` in each step (rounding) move the state at the `k`-th time point `t` by at most
`(d + k ε + (t - t0) η) exp (L (t - t0))`, on every grid and whatever the step sizes. -/
theorem C104_stable : StableSolver (eulerSolver (Except PyErr) ℝ V A) ∧
    StableSolver (midpointSolver (Except PyErr) ℝ V A) ∧ StableSolver (rk4Solver (Except PyErr) ℝ V A) :=
  ⟨stableSolver_of stable_euler (fun f args => euler_steppedBy f args),
    stableSolver_of stable_midpoint (fun f args => midpoint_steppedBy f args),
    stableSolver_of stable_rk4 (fun f args => rk4_steppedBy f args)⟩

/-- **C104**, one solver, two initial states: the flow map of the discretised network is Lipschitz with the constant
`exp (L (t - t0))` of the exact flow. -/
theorem C104_initial_state {solver : Solver (Except PyErr) ℝ V A}
    (hs : solver = eulerSolver (Except PyErr) ℝ V A ∨ solver = midpointSolver (Except PyErr) ℝ V A ∨
      solver = rk4Solver (Except PyErr) ℝ V A) (f : ℝ → V → V) (args : A) {L : ℝ} (hL : 0 ≤ L)
    (hLip : ∀ t y y', ‖f t y - f t y'‖ ≤ L * ‖y - y'‖) (x x' : V) (t0 t1 : ℝ) (rest : List ℝ)
    (hmono : (t0 :: t1 :: rest).Pairwise (· ≤ ·)) (hsep : Separated (t0 :: t1 :: rest)) :
    ∃ sol sol', odeintFixed (pureField f) x (t0 :: t1 :: rest) solver [] args = .ok (t0 :: t1 :: rest, sol) ∧
      odeintFixed (pureField f) x' (t0 :: t1 :: rest) solver [] args = .ok (t0 :: t1 :: rest, sol') ∧
      sol.length = (t0 :: t1 :: rest).length ∧ sol'.length = (t0 :: t1 :: rest).length ∧
      ∀ (k : ℕ) (t : ℝ) (y y' : V), (t0 :: t1 :: rest)[k]? = some t → sol[k]? = some y → sol'[k]? = some y' →
        ‖y' - y‖ ≤ Real.exp (L * (t - t0)) * ‖x' - x‖ := by
  have key : StableSolver solver ∧ ∃ φ, SteppedBy solver f args φ := by
    obtain ⟨h1, h2, h3⟩ := C104_stable (V := V) (A := A)
    rcases hs with rfl | rfl | rfl
    · exact ⟨h1, _, euler_steppedBy f args⟩
    · exact ⟨h2, _, midpoint_steppedBy f args⟩
    · exact ⟨h3, _, rk4_steppedBy f args⟩
  obtain ⟨hst, φ, hφ⟩ := key
  obtain ⟨sol, sol', hr, hr', hl, hl', hb⟩ := hst solver f f args args φ φ L 0 0 x x' t0 t1 rest hL le_rfl le_rfl hLip
    (by simp) hφ hφ hmono hsep
  refine ⟨sol, sol', hr, hr', hl, hl', fun k t y y' hk hy hy' => ?_⟩
  have := hb (by simp) k t y y' hk hy hy'
  simpa [mul_comm] using this

/-- An explicit Euler solver in fixed-point arithmetic with resolution `δ`: every new state is rounded down to a multiple
of `δ`. -/
noncomputable def fixedPointEuler (δ : ℝ) : Solver (Except PyErr) ℝ ℝ Unit :=
  { eulerSolver (Except PyErr) ℝ ℝ Unit with
    step := fun f x t dt _ _ => do
      let k ← f t x
      return .three none (⌊(x + dt * k) / δ⌋ * δ) none }

/-- `C104_stable` applies to fixed-point arithmetic and a quantised field: `sin` evaluated with an error of at most `1/100`
and states rounded to multiples of `1/1000`, on the grid `0, 1/2, 1`. -/
example : ∃ sol sol',
    odeintFixed (pureField (fun _ x => Real.sin x)) (1 : ℝ) [0, 1 / 2, 1] (eulerSolver (Except PyErr) ℝ ℝ Unit) [] () =
      .ok ([0, 1 / 2, 1], sol) ∧
    odeintFixed (pureField (fun _ x => ⌊Real.sin x * 100⌋ / 100)) (1.001 : ℝ) [0, 1 / 2, 1] (fixedPointEuler (1 / 1000))
      [] () = .ok ([0, 1 / 2, 1], sol') ∧
    ∀ y y', sol[2]? = some y → sol'[2]? = some y' → |y' - y| ≤ 0.013 * Real.exp 1 := by
  have hsin : ∀ t y y' : ℝ, ‖(fun _ x => Real.sin x : ℝ → ℝ → ℝ) t y - Real.sin y'‖ ≤ 1 * ‖y - y'‖ := by
    intro t y y'
    rw [one_mul]
    exact Real.abs_sin_sub_sin_le y y'
  have hq : ∀ t y : ℝ, ‖(fun _ x => ⌊Real.sin x * 100⌋ / 100 : ℝ → ℝ → ℝ) t y - Real.sin y‖ ≤ 1 / 100 := by
    intro t y
    have h1 := Int.floor_le (Real.sin y * 100)
    have h2 := Int.lt_floor_add_one (Real.sin y * 100)
    rw [Real.norm_eq_abs, abs_le]
    constructor <;> linarith
  have hmono : ([0, 1 / 2, 1] : List ℝ).Pairwise (· ≤ ·) := by norm_num
  have hsep : Separated ([0, 1 / 2, 1] : List ℝ) := by norm_num [Separated, Close, abs_le]
  obtain ⟨sol, sol', hr, hr', -, -, hb⟩ := (C104_stable (V := ℝ) (A := Unit)).1 (fixedPointEuler (1 / 1000))
    (fun _ x => Real.sin x) (fun _ x => ⌊Real.sin x * 100⌋ / 100) () ()
    (fun x t dt => x + dt • ((fun _ x => ⌊Real.sin x * 100⌋ / 100 : ℝ → ℝ → ℝ) t x))
    (fun x t dt => ⌊(x + dt * (⌊Real.sin x * 100⌋ / 100)) / (1 / 1000)⌋ * (1 / 1000)) 1 (1 / 100) (1 / 1000)
    1 1.001 0 (1 / 2) [1] zero_le_one (by norm_num) (by norm_num) hsin hq (euler_steppedBy _ _)
    (fun _ _ _ => ⟨none, none, rfl⟩) hmono hsep
  refine ⟨sol, sol', hr, hr', fun y y' hy hy' => ?_⟩
  have hε : ∀ (k : ℕ) (t t' y : ℝ), ([0, 1 / 2, 1] : List ℝ)[k]? = some t → ([0, 1 / 2, 1] : List ℝ)[k + 1]? = some t' →
      sol'[k]? = some y → ‖(⌊(y + (t' - t) * (⌊Real.sin y * 100⌋ / 100)) / (1 / 1000)⌋ * (1 / 1000) : ℝ) -
        (y + (t' - t) • (⌊Real.sin y * 100⌋ / 100 : ℝ))‖ ≤ 1 / 1000 := by
    intro k t t' y _ _ _
    simp only [smul_eq_mul]
    generalize y + (t' - t) * (⌊Real.sin y * 100⌋ / 100) = z
    have h1 := Int.floor_le (z / (1 / 1000))
    have h2 := Int.lt_floor_add_one (z / (1 / 1000))
    rw [Real.norm_eq_abs, abs_le]
    constructor <;> linarith
  have := hb hε 2 1 y y' rfl hy hy'
  norm_num at this ⊢
  exact this

end global

end Torchdyn
