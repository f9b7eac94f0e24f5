import Verif.Props.Energy
import Verif.Props.LocalConvergence
import Mathlib.Analysis.Normed.Module.FiniteDimension

/-!
Property C146: the energy of HNN and GNF models along the states that `odeint` returns.
-/

set_option linter.unusedSectionVars false

namespace Torchdyn

open Spec Set

variable {V A : Type} [NormedAddCommGroup V] [NormedSpace ℝ V]

/-- Stepping with `solver` from `y t0` keeps the quantity `E` within `C h^p` of its values along `y`: on every increasing grid from
`t0` in `[t0, T]` with gaps at most `h ≤ δ`; the states are what `odeint` returns on every grid it accepts. -/
def QuantityFollows (p : ℕ) (solver : Solver (Except PyErr) ℝ V A) (args : A) (f : ℝ → V → V) (E : V → ℝ) (y : ℝ → V) (t0 T : ℝ)
    (C δ : ℝ) : Prop :=
  ∀ (t1 : ℝ) (rest : List ℝ) (h : ℝ), h ≤ δ → (t0 :: t1 :: rest).Pairwise (· < ·) → (∀ t ∈ t0 :: t1 :: rest, t ≤ T) →
    (∀ (k : ℕ) (t t' : ℝ), (t0 :: t1 :: rest)[k]? = some t → (t0 :: t1 :: rest)[k + 1]? = some t' → t' - t ≤ h) →
    ∃ φ sol, SteppedBy solver f args φ ∧ IsTrajectory φ (y t0) (t0 :: t1 :: rest) sol ∧
      (Separated (t0 :: t1 :: rest) →
        odeintFixed (pureField f) (y t0) (t0 :: t1 :: rest) solver [] args = .ok (t0 :: t1 :: rest, sol)) ∧
      ∀ (k : ℕ) (t : ℝ) (x : V), (t0 :: t1 :: rest)[k]? = some t → sol[k]? = some x → |E x - E (y t)| ≤ C * h ^ p

/-- A continuously differentiable function is Lipschitz on a bounded set (finite dimension). -/
theorem quantity_lipschitz [FiniteDimensional ℝ V] {E : V → ℝ} (hE : ContDiff ℝ 1 E) (R : ℝ) :
    ∃ L, 0 ≤ L ∧ ∀ x x', ‖x‖ ≤ R → ‖x'‖ ≤ R → |E x - E x'| ≤ L * ‖x - x'‖ := by
  have : ProperSpace V := FiniteDimensional.proper_real V
  have hc : ContinuousOn (fun x => ‖fderiv ℝ E x‖) (Metric.closedBall (0 : V) R) :=
    (hE.continuous_fderiv one_ne_zero).norm.continuousOn
  obtain ⟨L, hL⟩ := (isCompact_closedBall (0 : V) R).bddAbove_image hc
  refine ⟨max L 0, le_max_right _ _, fun x x' hx hx' => ?_⟩
  have hmem : ∀ z : V, ‖z‖ ≤ R → z ∈ Metric.closedBall (0 : V) R := fun z hz => by simpa using hz
  have := (convex_closedBall (0 : V) R).norm_image_sub_le_of_norm_fderiv_le (f := E) (C := max L 0) (𝕜 := ℝ)
    (fun z _ => (hE.differentiable one_ne_zero) z)
    (fun z hz => (hL ⟨z, hz, rfl⟩).trans (le_max_left _ _)) (hmem x' hx') (hmem x hx)
  simpa using this

theorem quantity_follows [FiniteDimensional ℝ V] {p : ℕ} {solver : Solver (Except PyErr) ℝ V A} {args : A} {f : ℝ → V → V}
    {E : V → ℝ} (hE : ContDiff ℝ 1 E) {y : ℝ → V} {t0 T : ℝ} (hyc : ContinuousOn y (Icc t0 T))
    (H : ConvergesWithOrder p solver args f y t0 T) :
    ∃ C δ, 0 < δ ∧ QuantityFollows p solver args f E y t0 T C δ := by
  obtain ⟨C, δ, hδ, H⟩ := H
  obtain ⟨R, hR⟩ := (isCompact_Icc (a := t0) (b := T)).bddAbove_image hyc.norm
  obtain ⟨L, hL0, hL⟩ := quantity_lipschitz hE (R + |C|)
  refine ⟨L * C, min δ 1, lt_min hδ one_pos, fun t1 rest h hh hmono hT hgap => ?_⟩
  obtain ⟨φ, sol, h1, h2, h3, h4⟩ := H t1 rest h (hh.trans (min_le_left _ _)) hmono hT hgap
  refine ⟨φ, sol, h1, h2, h3, fun k t x hk hx => ?_⟩
  have hmem : t ∈ t0 :: t1 :: rest := List.mem_of_getElem? hk
  have hh0 : 0 ≤ h := by
    have h01 : t0 < t1 := (List.pairwise_cons.1 hmono).1 t1 (by simp)
    have := hgap 0 t0 t1 rfl rfl
    linarith
  have ht : t ∈ Icc t0 T := by
    refine ⟨?_, hT t hmem⟩
    rcases List.mem_cons.1 hmem with rfl | hm
    · exact le_rfl
    · exact ((List.pairwise_cons.1 hmono).1 t hm).le
  have hy : ‖y t‖ ≤ R := hR ⟨t, ht, rfl⟩
  have hxy := h4 k t x hk hx
  have hp : h ^ p ≤ 1 := pow_le_one₀ hh0 (hh.trans (min_le_right _ _))
  have hx : ‖x‖ ≤ R + |C| := by
    have e1 : ‖x‖ ≤ ‖x - y t‖ + ‖y t‖ := by simpa using norm_add_le (x - y t) (y t)
    have e2 : C * h ^ p ≤ |C| := by
      calc C * h ^ p ≤ |C| * h ^ p := mul_le_mul_of_nonneg_right (le_abs_self C) (pow_nonneg hh0 p)
        _ ≤ |C| * 1 := mul_le_mul_of_nonneg_left hp (abs_nonneg _)
        _ = |C| := mul_one _
    linarith
  refine (hL x (y t) hx (by linarith [abs_nonneg C])).trans ?_
  rw [mul_assoc]
  exact mul_le_mul_of_nonneg_left hxy hL0

section models

variable {B O : Type} [Fintype B] [DecidableEq B] [Fintype O] {d : Nat}

theorem autogradGrad_contDiff {n : ℕ} {φ : RowBatch B d → ℝ} (hφ : ContDiff ℝ (n + 1) φ) :
    ContDiff ℝ n (autogradGrad φ) := by
  refine contDiff_pi.2 fun b => contDiff_pi.2 fun i => ?_
  exact (hφ.fderiv_right (m := n) le_rfl).clm_apply contDiff_const

theorem hnnForward_contDiff {n : ℕ} {net : RowBatch B d → O → ℝ} (h : ContDiff ℝ (n + 1) fun y => ∑ o, net y o) :
    ContDiff ℝ n (hnnForward net) := by
  have h' := autogradGrad_contDiff h
  refine contDiff_pi.2 fun b => contDiff_pi.2 fun i => ?_
  by_cases hi : i.val < d - d / 2
  · simp only [hnnForward, hi, dite_true]
    exact contDiff_pi.1 (contDiff_pi.1 h' b) _
  · simp only [hnnForward, hi, dite_false]
    exact (contDiff_pi.1 (contDiff_pi.1 h' b) _).neg

theorem gnfForward_contDiff {n : ℕ} {net : RowBatch B d → O → ℝ} (h : ContDiff ℝ (n + 1) fun y => ∑ o, net y o) :
    ContDiff ℝ n (gnfForward net) := by
  have h' := autogradGrad_contDiff h
  refine contDiff_pi.2 fun b => contDiff_pi.2 fun i => ?_
  exact (contDiff_pi.1 (contDiff_pi.1 h' b) _).neg

/-- `euler`, `midpoint` and `rk4` with their orders. -/
inductive RkMethod
  | euler | midpoint | rk4

/-- The order of the method. -/
def RkMethod.p : RkMethod → ℕ
  | .euler => 1
  | .midpoint => 2
  | .rk4 => 4

/-- The solver object of the method. -/
noncomputable def RkMethod.solver (V A : Type) [AddCommGroup V] [Module ℝ V] : RkMethod → Solver (Except PyErr) ℝ V A
  | .euler => eulerSolver (Except PyErr) ℝ V A
  | .midpoint => midpointSolver (Except PyErr) ℝ V A
  | .rk4 => rk4Solver (Except PyErr) ℝ V A

theorem method_converges [FiniteDimensional ℝ V] (M : RkMethod) {F : V → V} (hF : ContDiff ℝ M.p F) {y : ℝ → V} {t0 T : ℝ}
    (hy : Spec.SolvesOn F t0 T y) (args : A) :
    ConvergesWithOrder M.p (M.solver V A) args (fun _ x => F x) y t0 T := by
  cases M with
  | euler => exact (C106_euler (fun _ x => F x) (hF.comp contDiff_snd) y t0 T hy args).converges
  | midpoint => exact (C106_midpoint (fun _ x => F x) (hF.comp contDiff_snd) y t0 T hy args).converges
  | rk4 => exact (C106_rk4_partial F hF y t0 T hy args).converges

/-- **C146 (partial: up to the order of the solver).** Let the summed output `H` of the network be `p + 1` times continuously
differentiable. Along every solution of the HNN, the energies of the states that `odeint` returns with `euler`, `midpoint`, `rk4`
(order `p`) stay within `C h^p` of the initial energy, on all grids with gaps at most `h`.

Missing: exact conservation, which is false (`C146_exact_refuted`). -/
theorem C146_hnn_drift_partial (M : RkMethod) (net : RowBatch B d → O → ℝ) (hd : Even d)
    (hnet : ContDiff ℝ (M.p + 1) fun y => ∑ o, net y o) (y : ℝ → RowBatch B d) (t0 T : ℝ)
    (hy : Spec.SolvesOn (hnnForward net) t0 T y) (args : A) :
    ∃ C δ, 0 < δ ∧ ∀ (t1 : ℝ) (rest : List ℝ) (h : ℝ), h ≤ δ → (t0 :: t1 :: rest).Pairwise (· < ·) →
      (∀ t ∈ t0 :: t1 :: rest, t ≤ T) →
      (∀ (k : ℕ) (t t' : ℝ), (t0 :: t1 :: rest)[k]? = some t → (t0 :: t1 :: rest)[k + 1]? = some t' → t' - t ≤ h) →
      ∃ φ sol, SteppedBy (M.solver (RowBatch B d) A) (fun _ => hnnForward net) args φ ∧
        IsTrajectory φ (y t0) (t0 :: t1 :: rest) sol ∧
        (Separated (t0 :: t1 :: rest) → odeintFixed (pureField fun _ => hnnForward net) (y t0) (t0 :: t1 :: rest)
          (M.solver (RowBatch B d) A) [] args = .ok (t0 :: t1 :: rest, sol)) ∧
        ∀ x ∈ sol, |∑ o, net x o - ∑ o, net (y t0) o| ≤ C * h ^ M.p := by
  obtain ⟨C, δ, hδ, H⟩ := quantity_follows (E := fun y => ∑ o, net y o) (hnet.of_le (by norm_num))
    (fun t ht => (hy t ht).continuousWithinAt) (method_converges M (hnnForward_contDiff hnet) hy args)
  refine ⟨C, δ, hδ, fun t1 rest h hh hmono hT hgap => ?_⟩
  obtain ⟨φ, sol, h1, h2, h3, h4⟩ := H t1 rest h hh hmono hT hgap
  refine ⟨φ, sol, h1, h2, h3, fun x hx => ?_⟩
  obtain ⟨k, hk⟩ := List.getElem?_of_mem hx
  have hlt : k < (t0 :: t1 :: rest).length := by
    rw [← h2.length_eq]
    exact (List.getElem?_eq_some_iff.1 hk).1
  have hkt : (t0 :: t1 :: rest)[k]? = some (t0 :: t1 :: rest)[k] := List.getElem?_eq_getElem hlt
  have ht : (t0 :: t1 :: rest)[k] ∈ Icc t0 T := by
    have hm : (t0 :: t1 :: rest)[k] ∈ t0 :: t1 :: rest := List.getElem_mem hlt
    refine ⟨?_, hT _ hm⟩
    rcases List.mem_cons.1 hm with e | hm
    · exact e.ge
    · exact ((List.pairwise_cons.1 hmono).1 _ hm).le
  have ht0 : t0 ∈ Icc t0 T := ⟨le_rfl, ht.1.trans ht.2⟩
  rw [C59_energy_conserved net hd (hnet.differentiable (by norm_num)) t0 T y hy t0 _ ht0 ht]
  exact h4 k _ x hkt hk

/-- **C146 (GNF).** Along every solution of a GNF, the energies of the states that `odeint` returns with `euler`, `midpoint`, `rk4`
(order `p`) never rise by more than `C h^p`: for all outputs `i ≤ j`, `E(x_j) ≤ E(x_i) + C h^p`. -/
theorem C146_gnf_descent (M : RkMethod) (energy : RowBatch B d → O → ℝ)
    (he : ContDiff ℝ (M.p + 1) fun y => ∑ o, energy y o) (y : ℝ → RowBatch B d) (t0 T : ℝ)
    (hy : Spec.SolvesOn (gnfForward energy) t0 T y) (args : A) :
    ∃ C δ, 0 < δ ∧ ∀ (t1 : ℝ) (rest : List ℝ) (h : ℝ), h ≤ δ → (t0 :: t1 :: rest).Pairwise (· < ·) →
      (∀ t ∈ t0 :: t1 :: rest, t ≤ T) →
      (∀ (k : ℕ) (t t' : ℝ), (t0 :: t1 :: rest)[k]? = some t → (t0 :: t1 :: rest)[k + 1]? = some t' → t' - t ≤ h) →
      ∃ φ sol, SteppedBy (M.solver (RowBatch B d) A) (fun _ => gnfForward energy) args φ ∧
        IsTrajectory φ (y t0) (t0 :: t1 :: rest) sol ∧
        (Separated (t0 :: t1 :: rest) → odeintFixed (pureField fun _ => gnfForward energy) (y t0) (t0 :: t1 :: rest)
          (M.solver (RowBatch B d) A) [] args = .ok (t0 :: t1 :: rest, sol)) ∧
        ∀ (i j : ℕ) (x x' : RowBatch B d), i ≤ j → sol[i]? = some x → sol[j]? = some x' →
          ∑ o, energy x' o ≤ ∑ o, energy x o + C * h ^ M.p := by
  obtain ⟨C, δ, hδ, H⟩ := quantity_follows (E := fun y => ∑ o, energy y o) (he.of_le (by norm_num))
    (fun t ht => (hy t ht).continuousWithinAt) (method_converges M (gnfForward_contDiff he) hy args)
  refine ⟨2 * C, δ, hδ, fun t1 rest h hh hmono hT hgap => ?_⟩
  obtain ⟨φ, sol, h1, h2, h3, h4⟩ := H t1 rest h hh hmono hT hgap
  refine ⟨φ, sol, h1, h2, h3, fun i j x x' hij hi hj => ?_⟩
  have hlt : ∀ {k : ℕ} {x}, sol[k]? = some x → k < (t0 :: t1 :: rest).length := fun hk => by
    rw [← h2.length_eq]
    exact (List.getElem?_eq_some_iff.1 hk).1
  have hIcc : ∀ t ∈ t0 :: t1 :: rest, t ∈ Icc t0 T := by
    intro t hm
    refine ⟨?_, hT _ hm⟩
    rcases List.mem_cons.1 hm with e | hm
    · exact e.ge
    · exact ((List.pairwise_cons.1 hmono).1 _ hm).le
  have e1 := h4 i _ x (List.getElem?_eq_getElem (hlt hi)) hi
  have e2 := h4 j _ x' (List.getElem?_eq_getElem (hlt hj)) hj
  have hle : (t0 :: t1 :: rest)[i]'(hlt hi) ≤ (t0 :: t1 :: rest)[j]'(hlt hj) := by
    rcases hij.eq_or_lt with rfl | hlt'
    · exact le_rfl
    · exact (List.pairwise_iff_getElem.1 hmono i j (hlt hi) (hlt hj) hlt').le
  have e3 := C60_energy_antitone energy (he.differentiable (by norm_num)) t0 T y hy
    (hIcc _ (List.getElem_mem (hlt hi))) (hIcc _ (List.getElem_mem (hlt hj))) hle
  simp only at e1 e2 e3
  rw [abs_le] at e1 e2
  nlinarith [e1.1, e1.2, e2.1, e2.2]

/-- The harmonic oscillator as an HNN. -/
noncomputable def oscNet : RowBatch Unit 2 → Unit → ℝ := fun y k => (fun z : Fin 2 → ℝ => (z 0 ^ 2 + z 1 ^ 2) / 2) (y k)

/-- The factor by which a step of size `h` multiplies the energy of the oscillator. -/
noncomputable def RkMethod.gain (h : ℝ) : RkMethod → ℝ
  | .euler => 1 + h ^ 2
  | .midpoint => 1 + h ^ 4 / 4
  | .rk4 => 1 - h ^ 6 / 72 + h ^ 8 / 576

theorem osc_step (M : RkMethod) (args : A) {φ : RowBatch Unit 2 → ℝ → ℝ → RowBatch Unit 2}
    (hφ : SteppedBy (M.solver (RowBatch Unit 2) A) (fun _ => hnnForward oscNet) args φ) (x : RowBatch Unit 2) (t h : ℝ) :
    ∑ o, oscNet (φ x t h) o = M.gain h * ∑ o, oscNet x o := by
  obtain ⟨k, e, hs⟩ := hφ x t h
  have hF : hnnForward oscNet = fun y u => ![y u 1, -y u 0] := funext hnn_oscillator
  rw [hF] at hs
  generalize φ x t h = z at hs ⊢
  cases M with
  | euler =>
    cases hs
    simp [oscNet, RkMethod.gain]
    ring
  | midpoint =>
    cases hs
    simp [oscNet, RkMethod.gain]
    ring
  | rk4 =>
    cases hs
    simp [oscNet, RkMethod.gain, constructRk4, nth, nth2]
    ring

theorem method_steppedBy (M : RkMethod) {W : Type} [AddCommGroup W] [Module ℝ W] (f : ℝ → W → W) (args : A) :
    ∃ φ, SteppedBy (M.solver W A) f args φ := by
  cases M with
  | euler => exact ⟨_, euler_steppedBy f args⟩
  | midpoint => exact ⟨_, midpoint_steppedBy f args⟩
  | rk4 => exact ⟨_, rk4_steppedBy f args⟩

/-- **C146 (refutation).** The energy of an HNN is not conserved by `odeint`: on the harmonic oscillator `H = (q² + p²) / 2`, from
every state but the origin and on every accepted increasing grid with gaps below 2, *every* step of `euler` and `midpoint` strictly
increases the energy, by the factors `1 + h²` and `1 + h⁴/4`, and every step of `rk4` strictly decreases it, by the factor
`1 - h⁶/72 + h⁸/576`. -/
theorem C146_exact_refuted (M : RkMethod) (x : RowBatch Unit 2) (hx : x ≠ 0) (t0 t1 : ℝ) (rest : List ℝ)
    (hinc : (t0 :: t1 :: rest).Pairwise (· < ·)) (hsep : Separated (t0 :: t1 :: rest))
    (hgap : ∀ (k : ℕ) (t t' : ℝ), (t0 :: t1 :: rest)[k]? = some t → (t0 :: t1 :: rest)[k + 1]? = some t' → t' - t < 2)
    (args : A) :
    ∃ sol, odeintFixed (pureField fun _ => hnnForward oscNet) x (t0 :: t1 :: rest) (M.solver (RowBatch Unit 2) A) [] args =
        .ok (t0 :: t1 :: rest, sol) ∧ sol.length = (t0 :: t1 :: rest).length ∧
      ∀ (k : ℕ) (t t' : ℝ) (y y' : RowBatch Unit 2), (t0 :: t1 :: rest)[k]? = some t → (t0 :: t1 :: rest)[k + 1]? = some t' →
        sol[k]? = some y → sol[k + 1]? = some y' →
        ∑ o, oscNet y' o = M.gain (t' - t) * ∑ o, oscNet y o ∧
        match M with
        | .rk4 => ∑ o, oscNet y' o < ∑ o, oscNet y o
        | _ => ∑ o, oscNet y o < ∑ o, oscNet y' o := by
  obtain ⟨φ, hφ⟩ := method_steppedBy M (fun _ : ℝ => hnnForward oscNet) args
  obtain ⟨sol, hrun, ht⟩ := C12_trajectory hφ x t0 t1 rest ((List.pairwise_cons.1 hinc).1 t1 (by simp)).le hsep
  have hpair : ∀ (k : ℕ) (t t' : ℝ), (t0 :: t1 :: rest)[k]? = some t → (t0 :: t1 :: rest)[k + 1]? = some t' → t < t' := by
    intro k t t' h1 h2
    obtain ⟨l1, rfl⟩ := List.getElem?_eq_some_iff.1 h1
    obtain ⟨l2, rfl⟩ := List.getElem?_eq_some_iff.1 h2
    exact List.pairwise_iff_getElem.1 hinc k (k + 1) l1 l2 (Nat.lt_succ_self k)
  have hstep : ∀ (k : ℕ) (t t' : ℝ) (y y' : RowBatch Unit 2), (t0 :: t1 :: rest)[k]? = some t →
      (t0 :: t1 :: rest)[k + 1]? = some t' → sol[k]? = some y → sol[k + 1]? = some y' →
      ∑ o, oscNet y' o = M.gain (t' - t) * ∑ o, oscNet y o := by
    intro k t t' y y' h1 h2 h3 h4
    have h5 := ht.next k t t' y h1 h2 h3
    rw [h4, Option.some.injEq] at h5
    rw [h5]
    exact osc_step M args hφ y t (t' - t)
  have hgain : ∀ h : ℝ, 0 < h → h < 2 → 0 < M.gain h := by
    intro h h0 h2
    cases M with
    | euler => simp only [RkMethod.gain]; positivity
    | midpoint => simp only [RkMethod.gain]; positivity
    | rk4 =>
      simp only [RkMethod.gain]
      have h6 : h ^ 6 < 2 ^ 6 := pow_lt_pow_left₀ h2 h0.le (by norm_num)
      have : 0 < h ^ 8 := by positivity
      linarith
  have hpos : ∀ (k : ℕ) (y : RowBatch Unit 2), sol[k]? = some y → 0 < ∑ o, oscNet y o := by
    intro k
    induction k with
    | zero =>
      intro y hy
      have := ht.start
      rw [hy, Option.some.injEq] at this
      subst this
      simp only [oscNet, Finset.univ_unique, Finset.sum_singleton]
      by_contra hle
      apply hx
      have h0 : y default 0 = 0 := by nlinarith [sq_nonneg (y default 0), sq_nonneg (y default 1)]
      have h1 : y default 1 = 0 := by nlinarith [sq_nonneg (y default 0), sq_nonneg (y default 1)]
      funext u i
      fin_cases i
      · exact h0
      · exact h1
    | succ k ih =>
      intro y' hy'
      have hk1 : k + 1 < sol.length := (List.getElem?_eq_some_iff.1 hy').1
      have hkl : k + 1 < (t0 :: t1 :: rest).length := by rw [← ht.length_eq]; exact hk1
      have a1 : (t0 :: t1 :: rest)[k]? = some ((t0 :: t1 :: rest)[k]'(by omega)) := List.getElem?_eq_getElem (by omega)
      have a2 : (t0 :: t1 :: rest)[k + 1]? = some ((t0 :: t1 :: rest)[k + 1]'hkl) := List.getElem?_eq_getElem hkl
      have a3 : sol[k]? = some (sol[k]'(by omega)) := List.getElem?_eq_getElem (by omega)
      rw [hstep k _ _ _ y' a1 a2 a3 hy']
      exact mul_pos (hgain _ (sub_pos.2 (hpair k _ _ a1 a2)) (hgap k _ _ a1 a2)) (ih _ a3)
  refine ⟨sol, hrun, ht.length_eq, fun k t t' y y' h1 h2 h3 h4 => ⟨hstep k t t' y y' h1 h2 h3 h4, ?_⟩⟩
  have hy := hpos k y h3
  have h0 : 0 < t' - t := sub_pos.2 (hpair k t t' h1 h2)
  have hE := hstep k t t' y y' h1 h2 h3 h4
  have hg := hgap k t t' h1 h2
  generalize t' - t = h at *
  rw [hE]
  cases M with
  | euler =>
    simp only [RkMethod.gain]
    have : 0 < h ^ 2 * ∑ o, oscNet y o := by positivity
    linarith
  | midpoint =>
    simp only [RkMethod.gain]
    have : 0 < h ^ 4 / 4 * ∑ o, oscNet y o := by positivity
    linarith
  | rk4 =>
    simp only [RkMethod.gain]
    have h2 : h ^ 2 < 2 ^ 2 := pow_lt_pow_left₀ hg h0.le (by norm_num)
    have h6 : 0 < h ^ 6 := by positivity
    have : 0 < (h ^ 6 / 72 - h ^ 8 / 576) * ∑ o, oscNet y o := by
      refine mul_pos ?_ hy
      nlinarith
    linarith

/-- The hypotheses of `C146_hnn_drift_partial` are met: `rk4` on the oscillator from `(0, 1)` over `[0, 10]`. -/
example : ∃ C δ, 0 < δ ∧ ∀ (t1 : ℝ) (rest : List ℝ) (h : ℝ), h ≤ δ → ((0 : ℝ) :: t1 :: rest).Pairwise (· < ·) →
      (∀ t ∈ (0 : ℝ) :: t1 :: rest, t ≤ 10) →
      (∀ (k : ℕ) (t t' : ℝ), ((0 : ℝ) :: t1 :: rest)[k]? = some t → ((0 : ℝ) :: t1 :: rest)[k + 1]? = some t' → t' - t ≤ h) →
      ∃ φ sol, SteppedBy (rk4Solver (Except PyErr) ℝ (RowBatch Unit 2) Unit) (fun _ => hnnForward oscNet) () φ ∧
        IsTrajectory φ (fun _ => ![Real.sin 0, Real.cos 0]) (0 :: t1 :: rest) sol ∧
        (Separated ((0 : ℝ) :: t1 :: rest) → odeintFixed (pureField fun _ => hnnForward oscNet)
          (fun _ => ![Real.sin 0, Real.cos 0]) (0 :: t1 :: rest)
          (rk4Solver (Except PyErr) ℝ (RowBatch Unit 2) Unit) [] () = .ok (0 :: t1 :: rest, sol)) ∧
        ∀ x ∈ sol, |∑ o, oscNet x o - ∑ o, oscNet (fun _ => ![Real.sin 0, Real.cos 0]) o| ≤ C * h ^ 4 := by
  refine C146_hnn_drift_partial .rk4 oscNet (by decide) ?_ (fun t _ => ![Real.sin t, Real.cos t]) 0 10 ?_ ()
  · unfold oscNet
    simp only [Finset.univ_unique, Finset.sum_singleton]
    fun_prop
  · intro t _
    have hF : hnnForward oscNet = fun y u => ![y u 1, -y u 0] := funext hnn_oscillator
    rw [hF]
    refine hasDerivWithinAt_pi.2 (fun u => hasDerivWithinAt_pi.2 (fun i => ?_))
    fin_cases i
    · exact (Real.hasDerivAt_sin t).hasDerivWithinAt
    · exact (Real.hasDerivAt_cos t).hasDerivWithinAt

/-- The hypotheses of `C146_exact_refuted` are met. -/
example : ∃ sol, odeintFixed (pureField fun _ => hnnForward oscNet) (fun _ _ => 1) [0, 1, 2, 3]
    (eulerSolver (Except PyErr) ℝ (RowBatch Unit 2) Unit) [] () = .ok ([0, 1, 2, 3], sol) ∧ sol.length = 4 := by
  have hsep : Separated [(0 : ℝ), 1, 2, 3] := by
    norm_num [Separated, Close, List.pairwise_cons, abs_of_pos, abs_of_neg]
  have hgap : ∀ (k : ℕ) (t t' : ℝ), [(0 : ℝ), 1, 2, 3][k]? = some t → [(0 : ℝ), 1, 2, 3][k + 1]? = some t' → t' - t < 2 := by
    rintro (_ | _ | _ | k) t t' h1 h2 <;> simp at h1 h2 <;> subst h1 h2 <;> norm_num
  obtain ⟨sol, h1, h2, -⟩ := C146_exact_refuted .euler (fun _ _ => 1) (fun h => by simpa using congrFun (congrFun h ()) 0) 0 1 [2, 3]
    (by norm_num) hsep hgap ()
  exact ⟨sol, h1, h2⟩

end models

end Torchdyn
