import Verif.Props.InterpGradients

/-!
Properties C107, C109, C141: with `rk4` in both passes the gradients of time-dependent fields (adjoint) and of autonomous
fields (interpolated adjoint) are of first order only.
-/

set_option linter.unusedSectionVars false
set_option linter.unusedSimpArgs false
set_option linter.unusedVariables false

namespace Torchdyn

open Spec Set
open scoped Topology

section tools

variable {V : Type} [NormedAddCommGroup V] [NormedSpace ℝ V]

/-- A step of `rk4` along an axis on which the field depends on time only. -/
theorem rk4_axis {F : ℝ → V → V} {u e : V} {g : ℝ → ℝ} (hF : ∀ s r : ℝ, F s (u + r • e) = g s • e) (r t h : ℝ) :
    rk4Update F (u + r • e) t h = u + (r + h * (g t + g (t + h / 2)) / 2) • e := by
  rw [rk4_rkT]
  have hF' : ∀ s r c : ℝ, F s (u + r • e + c • e) = g s • e := fun s r c => by
    rw [add_assoc, ← add_smul]
    exact hF s _
  simp only [rkStagesT, comb, List.zipWith_cons_cons, List.zipWith_nil_right, List.zipWith_nil_left, List.sum_cons, List.sum_nil,
    List.nil_append, List.cons_append, mul_zero, zero_mul, add_zero, zero_smul, smul_zero, zero_add, one_smul, hF, smul_smul,
    ← add_smul, hF', mul_one, ← add_assoc]
  rw [add_assoc, ← add_smul]
  congr 2
  rw [show 1 / 2 * h = h / 2 from by ring]
  ring

theorem rk4_unique {A : Type} {f : ℝ → V → V} {args : A} {φ : V → ℝ → ℝ → V}
    (h : SteppedBy (rk4Solver (Except PyErr) ℝ V A) f args φ) (x : V) (t dt : ℝ) : φ x t dt = rk4Update f x t dt := by
  obtain ⟨_, _, e⟩ := h x t dt
  obtain ⟨_, _, e'⟩ := rk4_steppedBy f args x t dt
  rw [e] at e'
  injection e' with e'
  injection e' with _ e' _

theorem unitGrid_some {N k : ℕ} {t : ℝ} (h : (unitGrid N)[k]? = some t) : k ≤ N ∧ t = k / N := by
  by_cases hk : k ≤ N
  · rw [unitGrid_get hk] at h
    exact ⟨hk, (Option.some.inj h).symm⟩
  · rw [unitGrid_none (by omega)] at h
    cases h

theorem unitGrid_length (N : ℕ) : (unitGrid N).length = N + 1 := by simp [unitGrid]

theorem unitGrid_increasing {N : ℕ} (hN : 0 < N) : (unitGrid N).Pairwise (· < ·) := by
  have : (0 : ℝ) < N := by exact_mod_cast hN
  rw [unitGrid, List.pairwise_map]
  refine List.pairwise_lt_range.imp fun hab => ?_
  have : ((_ : ℕ) : ℝ) < ((_ : ℕ) : ℝ) := Nat.cast_lt.2 hab
  gcongr

theorem unitGrid_last {N : ℕ} (hN : 0 < N) : (unitGrid N).getLast? = some 1 := by
  have : (N : ℝ) ≠ 0 := by exact_mod_cast hN.ne'
  rw [List.getLast?_eq_getElem?, unitGrid_length, Nat.add_sub_cancel, unitGrid_get le_rfl, div_self this]

theorem unitGrid_gaps {N : ℕ} : ∀ (k : ℕ) (t t' : ℝ), (unitGrid N)[k]? = some t → (unitGrid N)[k + 1]? = some t' →
    t' - t ≤ 1 / N := by
  intro k t t' ht ht'
  obtain ⟨-, rfl⟩ := unitGrid_some ht
  obtain ⟨-, rfl⟩ := unitGrid_some ht'
  rw [← sub_div]
  simp

/-- Weight one on the last output, zero on the others. -/
def lastWeight (N : ℕ) : List ℝ := List.replicate N 0 ++ [1]

theorem lastWeight_sum (N : ℕ) : ((lastWeight N).map fun c => |c|).sum ≤ 1 := by simp [lastWeight]

theorem zipWith_lastWeight (N : ℕ) (hN : 0 < N) (F : ℝ → ℝ) :
    (List.zipWith (fun c s => c * F s) (lastWeight N) (unitGrid N)).sum = F 1 := by
  have hn : (N : ℝ) ≠ 0 := by exact_mod_cast hN.ne'
  have h1 : unitGrid N = ((List.range N).map fun k : ℕ => (k : ℝ) / N) ++ [1] := by
    rw [unitGrid, List.range_succ, List.map_append]
    simp [hn]
  have h2 : ∀ l : List ℝ, (List.zipWith (fun c s => c * F s) (List.replicate l.length 0) l).sum = 0 := by
    intro l
    induction l with
    | nil => simp
    | cons a l ih => simp [List.replicate_succ, ih]
  rw [h1, lastWeight, List.zipWith_append (by simp), List.sum_append]
  have := h2 ((List.range N).map fun k : ℕ => (k : ℝ) / N)
  rw [List.length_map, List.length_range] at this
  rw [this]
  simp

theorem lastWeight_get {N k : ℕ} (hk : k ≤ N) : (lastWeight N)[k]? = some (if k = N then 1 else 0) := by
  unfold lastWeight
  by_cases h : k = N
  · subst h
    simp
  · rw [if_neg h, List.getElem?_append_left (by simp; omega), List.getElem?_replicate, if_pos (by omega)]

/-- Backward passes along an axis over the grid `0, 1/N, …, 1`, when each step is off by a quarter of the square of its size. -/
theorem backPass_unit {G : Type} {ψ : V → ℝ → ℝ → V} {jump : V → G → V} {gs : List G} {g0 : G} {u e : V} {N : ℕ} (hN : 0 < N)
    (hψ : ∀ (r : ℝ) (k : ℕ), k < N → ψ (u + r • e) (-((k + 1 : ℕ) / N)) (1 / N) =
      u + (r + 1 / N * ((k + 1 : ℕ) / N) - (1 / N) ^ 2 / 4) • e) (hj : ∀ v, jump v g0 = v)
    (hgs : ∀ i < N, gs[i]? = some g0) : ∀ i ≤ N, ∀ r : ℝ, backPass ψ jump (unitGrid N) gs i (u + r • e) =
      some (u + (r + ((i : ℝ) / N) ^ 2 / 2 + i / (4 * (N : ℝ) ^ 2)) • e) := by
  have hn : (N : ℝ) ≠ 0 := by exact_mod_cast hN.ne'
  intro i
  induction i with
  | zero => intro _ r; simp [backPass]
  | succ i ih =>
    intro hi r
    rw [backPass, unitGrid_get hi, unitGrid_get (by omega : i ≤ N), hgs i (by omega)]
    simp only
    rw [show ((i + 1 : ℕ) : ℝ) / N - i / N = 1 / N from by push_cast; field_simp; ring, hψ r i (by omega), hj, ih (by omega)]
    congr 3
    push_cast
    field_simp
    ring

/-- An error of `1/(4N)` for all large `N` is not of second order. -/
theorem not_second_order {C δ : ℝ} {p : ℕ} (hδ : 0 < δ) (hp : 2 ≤ p)
    (H : ∀ N : ℕ, 0 < N → 1 / (N : ℝ) ≤ δ → 1 / (4 * (N : ℝ)) ≤ C * (1 / N) ^ p) : False := by
  obtain ⟨N, hN⟩ := exists_nat_gt (max (1 / δ) (4 * |C|))
  have hN1 : 1 / δ < N := (le_max_left _ _).trans_lt hN
  have hN2 : 4 * |C| < N := (le_max_right _ _).trans_lt hN
  have hNpos : (0 : ℝ) < N := (by positivity : (0 : ℝ) ≤ 4 * |C|).trans_lt hN2
  have hN0 : 0 < N := by exact_mod_cast hNpos
  have := H N hN0 (by rw [div_le_iff₀ hNpos]; rw [div_lt_iff₀ hδ] at hN1; linarith)
  have h1 : (1 / (N : ℝ)) ^ p ≤ (1 / N) ^ 2 :=
    pow_le_pow_of_le_one (by positivity) (by rw [div_le_one hNpos]; exact_mod_cast hN0) hp
  have h2 : 1 / (4 * (N : ℝ)) ≤ |C| * (1 / N) ^ 2 :=
    this.trans ((mul_le_mul_of_nonneg_right (le_abs_self C) (by positivity)).trans
      (mul_le_mul_of_nonneg_left h1 (abs_nonneg C)))
  have := mul_le_mul_of_nonneg_left h2 (by positivity : (0 : ℝ) ≤ 4 * N ^ 2)
  have e1 : 4 * (N : ℝ) ^ 2 * (1 / (4 * N)) = N := by field_simp
  have e2 : 4 * (N : ℝ) ^ 2 * (|C| * (1 / N) ^ 2) = 4 * |C| := by field_simp
  linarith

end tools

/-- The adjoint equations of `x' = θ t` at `θ = 0`, along the axis of the parameter gradient. -/
theorem timeField_adjoint (xT s r : ℝ) : -adjointDynamics (smoothAdjoint (fun θ t (_ : ℝ) => θ * t) 0 none) (-s)
      (((xT, ContinuousLinearMap.id ℝ ℝ, 0, 0) : AdjS ℝ ℝ) + r • (0, 0, ContinuousLinearMap.id ℝ ℝ, 0)) =
      (-s) • ((0, 0, ContinuousLinearMap.id ℝ ℝ, 0) : AdjS ℝ ℝ) := by
  have h1 : fderiv ℝ (fun θ' : ℝ => θ' * -s) 0 = (-s) • ContinuousLinearMap.id ℝ ℝ :=
    ((hasFDerivAt_id (0 : ℝ)).mul_const (-s)).fderiv
  rw [adjointDynamics_smooth]
  simp only [h1, lossCot, zero_mul, fderiv_fun_const, deriv_const]
  ext <;> simp

/-- A backward step of `rk4` on these equations. -/
theorem timeField_step {ψ : AdjS ℝ ℝ → ℝ → ℝ → AdjS ℝ ℝ} (hψ : SteppedBy (rk4Solver (Except PyErr) ℝ (AdjS ℝ ℝ) Unit)
    (fun s w => -adjointDynamics (smoothAdjoint (fun θ t (_ : ℝ) => θ * t) 0 none) (-s) w) () ψ) (xT r t h : ℝ) :
    ψ ((xT, ContinuousLinearMap.id ℝ ℝ, 0, 0) + r • (0, 0, ContinuousLinearMap.id ℝ ℝ, 0)) (-t) h =
      (xT, ContinuousLinearMap.id ℝ ℝ, 0, 0) + (r + h * t - h ^ 2 / 4) • (0, 0, ContinuousLinearMap.id ℝ ℝ, 0) := by
  rw [rk4_unique hψ, rk4_axis (g := fun s => -s)
    (F := fun s w => -adjointDynamics (smoothAdjoint (fun θ t (_ : ℝ) => θ * t) 0 none) (-s) w) (timeField_adjoint xT)]
  congr 2
  ring

/-- **C109 (refutation of higher orders for time-dependent fields).** On `x' = θ t` with the loss `x(1)`, the gradient with
respect to `θ` computed with `rk4` in both passes is `1/2 + 1/(4N)` on the grid `0, 1/N, …, 1` in place of `1/2`: it is not of
second order. -/
theorem C109_rk4_time_refuted (p : ℕ) (hp : 2 ≤ p) :
    ¬ CheckpointGradientOrder p (rk4Solver (Except PyErr) ℝ ℝ Unit) () (rk4Solver (Except PyErr) ℝ (AdjS ℝ ℝ) Unit) ()
      (fun θ t _ => θ * t) 0 none (fun _ _ => 0) (fun _ x => x) 0 0 1 (fun q s => q.2 + q.1 * (s ^ 2 / 2)) := by
  intro H
  obtain ⟨C, δ, hδ, H⟩ := H 1
  refine not_second_order (C := C) hδ hp fun N hN hNδ => ?_
  have hn : (N : ℝ) ≠ 0 := by exact_mod_cast hN.ne'
  obtain ⟨t1, rest, hg⟩ := unitGrid_two N hN
  have hrest : rest.length + 1 = N := by
    have := unitGrid_length N
    rw [hg] at this
    simpa using this
  obtain ⟨D, φ, ψ, sol, xT, gx, gT, S', hD, -, htraj, hxT, hgx, hgT, hψ, hb, hbd, -⟩ := H t1 rest (1 / N) (lastWeight N) hNδ
    (hg ▸ unitGrid_increasing hN) (hg ▸ unitGrid_last hN) (hg ▸ unitGrid_gaps) (by rw [← hg, unitGrid_length]; simp [lastWeight])
    (lastWeight_sum N)
  rw [← hg] at hD hgx hb htraj
  rw [hrest] at hb
  -- the true gradient
  have hDe : D ((1 : ℝ), (0 : ℝ)) = 1 / 2 := by
    have e : (fun q : ℝ × ℝ => (List.zipWith (fun c s => c * (q.2 + q.1 * (s ^ 2 / 2))) (lastWeight N) (unitGrid N)).sum +
        ∫ _ in (0 : ℝ)..1, (0 : ℝ)) = fun q => q.2 + q.1 * (1 / 2) := by
      funext q
      rw [zipWith_lastWeight N hN (fun s => q.2 + q.1 * (s ^ 2 / 2))]
      simp
    rw [e] at hD
    have h1 : HasFDerivAt (fun q : ℝ × ℝ => q.2 + q.1 * (1 / 2))
        (ContinuousLinearMap.snd ℝ ℝ ℝ + (1 / 2 : ℝ) • ContinuousLinearMap.fst ℝ ℝ ℝ) (0, 0) := by
      have h2 : HasFDerivAt (fun q : ℝ × ℝ => q.2) (ContinuousLinearMap.snd ℝ ℝ ℝ) (0, 0) := hasFDerivAt_snd
      have h3 : HasFDerivAt (fun q : ℝ × ℝ => q.1) (ContinuousLinearMap.fst ℝ ℝ ℝ) (0, 0) := hasFDerivAt_fst
      exact h2.add (h3.mul_const (1 / 2))
    rw [hD.unique h1]
    simp
  have hsl : sol.length = N + 1 := by rw [htraj.length_eq, unitGrid_length]
  have hgxk : ∀ k ≤ N, gx[k]? = some (if k = N then ContinuousLinearMap.id ℝ ℝ else 0) := by
    intro k hk
    rw [hgx, List.getElem?_zipWith, lastWeight_get hk]
    obtain ⟨x, hx⟩ : ∃ x, sol[k]? = some x := ⟨_, List.getElem?_eq_getElem (by omega)⟩
    rw [show ((unitGrid N).zip sol)[k]? = some ((k : ℝ) / N, x) from by
      rw [List.getElem?_zip_eq_some]; exact ⟨unitGrid_get hk, hx⟩]
    simp only
    split <;> simp
  have hgl : gT = ContinuousLinearMap.id ℝ ℝ := by
    have hl : gx.length = N + 1 := by
      rw [hgx, List.length_zipWith, List.length_zip, hsl, unitGrid_length]
      simp [lastWeight]
    rw [List.getLast?_eq_getElem?, hl, Nat.add_sub_cancel, hgxk N le_rfl, if_pos rfl] at hgT
    exact (Option.some.inj hgT).symm
  subst hgl
  have hb' := backPass_unit hN (fun r k _ => timeField_step hψ xT r _ _) (jump := fun (S : AdjS ℝ ℝ) g => (S.1, S.2.1 + g, S.2.2.1, S.2.2.2)) (g0 := 0)
    (fun v => by simp) (gs := gx) (fun i hi => by rw [hgxk i hi.le, if_neg hi.ne]) N le_rfl 0
  rw [zero_smul, add_zero] at hb'
  have hst : ((xT, ContinuousLinearMap.id ℝ ℝ, 0, (ContinuousLinearMap.id ℝ ℝ) (0 * 1)) : AdjS ℝ ℝ) =
      (xT, ContinuousLinearMap.id ℝ ℝ, 0, 0) := by simp
  rw [hst] at hb
  rw [hb] at hb'
  have hS := Option.some.inj hb'
  have hv := (S'.2.2.1.coprod S'.2.1 - D).le_opNorm ((1 : ℝ), (0 : ℝ))
  have hnorm : ‖((1 : ℝ), (0 : ℝ))‖ = 1 := by simp [Prod.norm_def]
  rw [hnorm, mul_one] at hv
  have hval : (S'.2.2.1.coprod S'.2.1 - D) ((1 : ℝ), (0 : ℝ)) = 1 / (4 * N) := by
    rw [ContinuousLinearMap.sub_apply, hDe, hS]
    simp [hn]
    field_simp
  rw [hval, Real.norm_of_nonneg (by positivity)] at hv
  exact hv.trans hbd

/-- **C107 (refutation of higher orders for time-dependent fields).** The same field with the loss on the last state. -/
theorem C107_rk4_time_refuted (p : ℕ) (hp : 2 ≤ p) :
    ¬ GradientOrder p (rk4Solver (Except PyErr) ℝ ℝ Unit) () (rk4Solver (Except PyErr) ℝ (AdjS ℝ ℝ) Unit) ()
      (fun θ t _ => θ * t) 0 none (fun x => x) 0 0 1
      (ContinuousLinearMap.snd ℝ ℝ ℝ + (1 / 2 : ℝ) • ContinuousLinearMap.fst ℝ ℝ ℝ) := by
  rintro ⟨C, δ, hδ, H⟩
  refine not_second_order (C := C) hδ hp fun N hN hNδ => ?_
  have hn : (N : ℝ) ≠ 0 := by exact_mod_cast hN.ne'
  obtain ⟨t1, rest, hg⟩ := unitGrid_two N hN
  obtain ⟨φ, ψ, sol, xT, back, S', -, hψ, -, -, hb, hS', hbd, -⟩ := H t1 rest (1 / N) hNδ
    (hg ▸ unitGrid_increasing hN) (hg ▸ unitGrid_last hN) (hg ▸ unitGrid_gaps)
  rw [← hg, fderiv_id'] at hb
  have hst : ((xT, ContinuousLinearMap.id ℝ ℝ, 0, (ContinuousLinearMap.id ℝ ℝ) (0 * 1)) : AdjS ℝ ℝ) =
      (xT, ContinuousLinearMap.id ℝ ℝ, 0, 0) := by simp
  rw [hst] at hb
  have hrev : ∀ k ≤ N, ((unitGrid N).reverse.map fun t => -t)[k]? = some (-(((N - k : ℕ) : ℝ) / N)) := by
    intro k hk
    rw [List.getElem?_map, List.getElem?_reverse (by rw [unitGrid_length]; omega), unitGrid_length,
      show N + 1 - 1 - k = N - k from by omega, unitGrid_get (by omega)]
    rfl
  have hback : ∀ k ≤ N, back[k]? = some ((xT, ContinuousLinearMap.id ℝ ℝ, 0, 0) +
      ((k : ℝ) / N - ((k : ℝ) / N) ^ 2 / 2 + k / (4 * (N : ℝ) ^ 2)) • (0, 0, ContinuousLinearMap.id ℝ ℝ, 0)) := by
    intro k
    induction k with
    | zero =>
      intro _
      rw [hb.start]
      simp
    | succ k ih =>
      intro hk
      rw [hb.next k _ _ _ (hrev k (by omega)) (hrev (k + 1) hk) (ih (by omega)), timeField_step hψ]
      congr 3
      rw [Nat.cast_sub hk, Nat.cast_sub (by omega : k ≤ N)]
      push_cast
      field_simp
      ring
  have hl : back.length = N + 1 := by rw [hb.length_eq]; simp [unitGrid_length]
  rw [List.getLast?_eq_getElem?, hl, Nat.add_sub_cancel, hback N le_rfl] at hS'
  have hS := (Option.some.inj hS').symm
  have hv := (S'.2.2.1.coprod S'.2.1 - (ContinuousLinearMap.snd ℝ ℝ ℝ + (1 / 2 : ℝ) • ContinuousLinearMap.fst ℝ ℝ ℝ)).le_opNorm
    ((1 : ℝ), (0 : ℝ))
  have hnorm : ‖((1 : ℝ), (0 : ℝ))‖ = 1 := by simp [Prod.norm_def]
  rw [hnorm, mul_one] at hv
  have hval : (S'.2.2.1.coprod S'.2.1 - (ContinuousLinearMap.snd ℝ ℝ ℝ + (1 / 2 : ℝ) • ContinuousLinearMap.fst ℝ ℝ ℝ))
      ((1 : ℝ), (0 : ℝ)) = 1 / (4 * N) := by
    rw [ContinuousLinearMap.sub_apply, hS]
    simp [hn]
    field_simp
    ring
  rw [hval, Real.norm_of_nonneg (by positivity)] at hv
  exact hv.trans hbd

/-- **C141 (refutation of higher orders for `rk4`).** On the autonomous field `x₁' = 1, x₂' = θ x₁` with the loss `x₂(1)`, the
forward pass and the spline are exact, but the gradient with respect to `θ` computed by the interpolated adjoint with `rk4` is
`1/2 + 1/(4N)` on the grid `0, 1/N, …, 1` in place of `1/2`: along the spline the backward equations depend on time, for which
`rk4` is of first order. -/
theorem C141_rk4_refuted (p : ℕ) (hp : 2 ≤ p) {spline : List ℝ → List (ℝ × ℝ) → Except PyErr (ℝ → ℝ × ℝ)}
    (hspl : NaturalSplines spline) :
    ¬ InterpGradientOrder p (rk4Solver (Except PyErr) ℝ (ℝ × ℝ) Unit) () (rk4Solver (Except PyErr) ℝ (CotS (ℝ × ℝ) ℝ) Unit) ()
      spline (fun θ _ x => (1, θ * x.1)) 0 none (fun _ _ => 0) (fun _ x => x.2) (0, 0) 0 1
      (fun q s => (q.2.1 + s, q.2.2 + q.1 * (q.2.1 * s + s ^ 2 / 2))) := by
  intro H
  obtain ⟨C, δ, hδ, H⟩ := H 1
  refine not_second_order (C := C) hδ hp fun N hN hNδ => ?_
  have hn : (N : ℝ) ≠ 0 := by exact_mod_cast hN.ne'
  obtain ⟨t1, rest, hg⟩ := unitGrid_two N hN
  have hrest : rest.length + 1 = N := by
    have := unitGrid_length N
    rw [hg] at this
    simpa using this
  obtain ⟨D, φ, ψ, sol, curve, gx, gT, S', hD, hφ, htraj, hcur, hgx, hgT, hψ, hb, hbd, -⟩ := H t1 rest (1 / N) (lastWeight N)
    hNδ (hg ▸ unitGrid_increasing hN) (hg ▸ unitGrid_last hN) (hg ▸ unitGrid_gaps)
    (by rw [← hg, unitGrid_length]; simp [lastWeight]) (lastWeight_sum N)
  rw [← hg] at hD hgx hb htraj hcur
  rw [hrest] at hb
  -- the true gradient
  have hDe : D ((1 : ℝ), ((0 : ℝ), (0 : ℝ))) = 1 / 2 := by
    have e : (fun q : ℝ × ℝ × ℝ => (List.zipWith (fun c s => c * (q.2.2 + q.1 * (q.2.1 * s + s ^ 2 / 2))) (lastWeight N)
        (unitGrid N)).sum + ∫ _ in (0 : ℝ)..1, (0 : ℝ)) = fun q => q.2.2 + q.1 * (q.2.1 + 1 / 2) := by
      funext q
      rw [zipWith_lastWeight N hN (fun s => q.2.2 + q.1 * (q.2.1 * s + s ^ 2 / 2))]
      simp
    rw [e] at hD
    have hc : HasDerivAt (fun r : ℝ => ((r, (0, 0)) : ℝ × ℝ × ℝ)) (1, (0, 0)) 0 :=
      (hasDerivAt_id (0 : ℝ)).prodMk (hasDerivAt_const (0 : ℝ) ((0, 0) : ℝ × ℝ))
    have h1 := HasFDerivAt.comp_hasDerivAt (0 : ℝ) (f := fun r : ℝ => ((r, (0, 0)) : ℝ × ℝ × ℝ)) hD hc
    have h2 : HasDerivAt (fun r : ℝ => r * (1 / 2)) (1 * (1 / 2)) 0 := (hasDerivAt_id (0 : ℝ)).mul_const (1 / 2)
    have h3 : ((fun q : ℝ × ℝ × ℝ => q.2.2 + q.1 * (q.2.1 + 1 / 2)) ∘ fun r : ℝ => ((r, (0, 0)) : ℝ × ℝ × ℝ)) =
        fun r => r * (1 / 2) := by
      funext r
      simp
    rw [h3] at h1
    rw [h1.unique h2, one_mul]
  -- the forward pass
  have hsl : sol.length = N + 1 := by rw [htraj.length_eq, unitGrid_length]
  have hfs : ∀ (r t h : ℝ), φ (r, 0) t h = (r + h, 0) := by
    intro r t h
    have := rk4_axis (F := fun (_ : ℝ) (x : ℝ × ℝ) => ((1 : ℝ), 0 * x.1)) (u := 0) (e := ((1 : ℝ), (0 : ℝ))) (g := fun _ => 1)
      (fun s r => by simp) r t h
    rw [zero_add] at this
    have e : r • (((1 : ℝ), (0 : ℝ))) = (r, 0) := by simp
    rw [e] at this
    rw [rk4_unique hφ, this]
    ext <;> simp
    ring
  have hsol : ∀ k ≤ N, sol[k]? = some ((k : ℝ) / N, 0) := by
    intro k
    induction k with
    | zero => intro _; rw [htraj.start]; simp
    | succ k ih =>
      intro hk
      rw [htraj.next k _ _ _ (unitGrid_get (by omega)) (unitGrid_get hk) (ih (by omega)), hfs]
      congr 2
      ring
  -- the spline
  obtain ⟨s, hs, hnat⟩ := hspl (unitGrid N) sol (unitGrid_increasing hN) htraj.length_eq (by rw [unitGrid_length]; omega)
  rw [hcur] at hs
  obtain rfl := Except.ok.inj hs
  have hid : ∀ k < N, ∀ r : ℝ, (k : ℝ) / N ≤ r → r ≤ (k + 1 : ℕ) / N → (curve r).1 = r := by
    intro k hk r h0 h1
    have hp := NaturalSpline.near_polygon hnat (unitGrid_increasing hN) htraj.length_eq (D := 0) le_rfl (by
      intro i t t' t'' x x' x'' a1 a2 a3 b1 b2 b3
      obtain ⟨c1, rfl⟩ := unitGrid_some a1
      obtain ⟨c2, rfl⟩ := unitGrid_some a2
      obtain ⟨c3, rfl⟩ := unitGrid_some a3
      rw [hsol _ c1] at b1
      rw [hsol _ c2] at b2
      rw [hsol _ c3] at b3
      obtain rfl := Option.some.inj b1
      obtain rfl := Option.some.inj b2
      obtain rfl := Option.some.inj b3
      have e1 : (((i + 2 : ℕ) : ℝ) / N - (i + 1 : ℕ) / N) = 1 / N := by push_cast; field_simp; ring
      have e2 : (((i + 1 : ℕ) : ℝ) / N - (i : ℕ) / N) = 1 / N := by push_cast; field_simp; ring
      simp only [Prod.mk_sub_mk, e1, e2, sub_self, norm_zero, zero_mul, le_refl]) k _ _ _ _ (unitGrid_get hk.le) (unitGrid_get hk) (hsol k hk.le) (hsol (k + 1) hk) r h0 h1
    rw [mul_zero, zero_mul, norm_le_zero_iff, sub_eq_zero] at hp
    have e2 : (((k + 1 : ℕ) : ℝ) / N - (k : ℕ) / N) = 1 / N := by push_cast; field_simp; ring
    rw [hp]
    simp only [Prod.mk_sub_mk, e2, Prod.smul_mk, Prod.mk_add_mk, smul_eq_mul]
    field_simp
    ring
  -- the backward pass
  have hgxk : ∀ k ≤ N, gx[k]? = some (if k = N then ContinuousLinearMap.snd ℝ ℝ ℝ else 0) := by
    intro k hk
    rw [hgx, List.getElem?_zipWith, lastWeight_get hk]
    rw [show ((unitGrid N).zip sol)[k]? = some ((k : ℝ) / N, ((k : ℝ) / N, 0)) from by
      rw [List.getElem?_zip_eq_some]; exact ⟨unitGrid_get hk, hsol k hk⟩]
    simp only [fderiv_snd]
    split <;> simp
  have hgl : gT = ContinuousLinearMap.snd ℝ ℝ ℝ := by
    have hl : gx.length = N + 1 := by
      rw [hgx, List.length_zipWith, List.length_zip, hsl, unitGrid_length]
      simp [lastWeight]
    rw [List.getLast?_eq_getElem?, hl, Nat.add_sub_cancel, hgxk N le_rfl, if_pos rfl] at hgT
    exact (Option.some.inj hgT).symm
  subst hgl
  have hF : ∀ s r : ℝ, -interpDynamics (smoothAdjoint (fun θ (_ : ℝ) (x : ℝ × ℝ) => ((1 : ℝ), θ * x.1)) 0 none) curve (-s)
      (((ContinuousLinearMap.snd ℝ ℝ ℝ, 0) : CotS (ℝ × ℝ) ℝ) + r • (0, ContinuousLinearMap.id ℝ ℝ)) =
      (curve (-s)).1 • ((0, ContinuousLinearMap.id ℝ ℝ) : CotS (ℝ × ℝ) ℝ) := by
    intro s r
    have h1 : fderiv ℝ (fun θ' : ℝ => ((1 : ℝ), θ' * (curve (-s)).1)) 0 =
        (0 : ℝ →L[ℝ] ℝ).prod ((curve (-s)).1 • ContinuousLinearMap.id ℝ ℝ) :=
      ((hasFDerivAt_const (1 : ℝ) (0 : ℝ)).prodMk ((hasFDerivAt_id (0 : ℝ)).mul_const _)).fderiv
    have h2 : fderiv ℝ (fun x' : ℝ × ℝ => ((1 : ℝ), (0 : ℝ) * x'.1)) (curve (-s)) = 0 := by
      simp only [zero_mul, fderiv_fun_const]
      rfl
    unfold interpDynamics
    simp only [smoothAdjoint, h1, h2]
    refine Prod.ext ?_ ?_
    · simp
    · ext
      simp
  have hstep : ∀ (r : ℝ) (k : ℕ), k < N →
      ψ ((ContinuousLinearMap.snd ℝ ℝ ℝ, 0) + r • (0, ContinuousLinearMap.id ℝ ℝ)) (-((k + 1 : ℕ) / N)) (1 / N) =
      (ContinuousLinearMap.snd ℝ ℝ ℝ, 0) + (r + 1 / N * ((k + 1 : ℕ) / N) - (1 / N) ^ 2 / 4) •
        (0, ContinuousLinearMap.id ℝ ℝ) := by
    intro r k hk
    rw [rk4_unique hψ, rk4_axis (g := fun s => (curve (-s)).1) (F := fun s w =>
      -interpDynamics (smoothAdjoint (fun θ (_ : ℝ) (x : ℝ × ℝ) => ((1 : ℝ), θ * x.1)) 0 none) curve (-s) w) hF]
    have hNp : (0 : ℝ) < N := by exact_mod_cast hN
    have e1 : (curve (- -((k + 1 : ℕ) / N : ℝ))).1 = (k + 1 : ℕ) / N := by
      rw [neg_neg]
      refine hid k hk _ ?_ le_rfl
      gcongr
      omega
    have e2 : (curve (-(-((k + 1 : ℕ) / N : ℝ) + 1 / N / 2))).1 = (k + 1 : ℕ) / N - 1 / N / 2 := by
      rw [neg_add, neg_neg, ← sub_eq_add_neg]
      have hpos : (0 : ℝ) < 1 / N := by positivity
      refine hid k hk _ ?_ (by linarith)
      have : ((k + 1 : ℕ) : ℝ) / N = k / N + 1 / N := by push_cast; ring
      rw [this]
      linarith
    simp only [e1, e2]
    congr 2
    ring
  have hb' := backPass_unit hN hstep (jump := fun (S : CotS (ℝ × ℝ) ℝ) g => (S.1 + g, S.2)) (g0 := 0)
    (fun v => by simp) (gs := gx) (fun i hi => by rw [hgxk i hi.le, if_neg hi.ne]) N le_rfl 0
  rw [zero_smul, add_zero] at hb'
  rw [hb] at hb'
  have hS := Option.some.inj hb'
  have hv := (S'.2.coprod S'.1 - D).le_opNorm ((1 : ℝ), ((0 : ℝ), (0 : ℝ)))
  have hnorm : ‖((1 : ℝ), ((0 : ℝ), (0 : ℝ)))‖ = 1 := by simp [Prod.norm_def]
  rw [hnorm, mul_one] at hv
  have hval : (S'.2.coprod S'.1 - D) ((1 : ℝ), ((0 : ℝ), (0 : ℝ))) = 1 / (4 * N) := by
    rw [ContinuousLinearMap.sub_apply, hDe, hS]
    simp [hn]
    field_simp
  rw [hval, Real.norm_of_nonneg (by positivity)] at hv
  exact hv.trans hbd

/-- On the field of `C141_rk4_refuted`, `midpoint` does compute gradients with second order. -/
example {spline : List ℝ → List (ℝ × ℝ) → Except PyErr (ℝ → ℝ × ℝ)} (hspl : NaturalSplines spline) :
    InterpGradientOrder 2 (midpointSolver (Except PyErr) ℝ (ℝ × ℝ) Unit) ()
      (midpointSolver (Except PyErr) ℝ (CotS (ℝ × ℝ) ℝ) Unit) () spline (fun θ _ x => (1, θ * x.1)) 0 none (fun _ _ => 0)
      (fun _ x => x.2) (0, 0) 0 1 (fun q s => (q.2.1 + s, q.2.2 + q.1 * (q.2.1 * s + s ^ 2 / 2))) := by
  refine C141_midpoint (by fun_prop) (by simp only [lossCot]; fun_prop) (by fun_prop) (fun t x => hasFDerivAt_const _ _)
    (fun t => by fun_prop) ?_ one_pos _ (Filter.Eventually.of_forall fun q => ⟨by simp, fun t ht => ?_⟩) hspl () ()
  · simp only [fderiv_snd]
    fun_prop
  · refine HasDerivAt.hasDerivWithinAt ?_
    have h1 : HasDerivAt (fun s : ℝ => q.2.1 + s) 1 t := (hasDerivAt_id t).const_add _
    have h2 : HasDerivAt (fun s : ℝ => q.2.2 + q.1 * (q.2.1 * s + s ^ 2 / 2)) (q.1 * (q.2.1 + t)) t := by
      have h3 : HasDerivAt (fun s : ℝ => q.2.1 * s + s ^ 2 / 2) (q.2.1 * 1 + (2 : ℕ) * t ^ (2 - 1) * 1 / 2) t :=
        ((hasDerivAt_id t).const_mul _).add (((hasDerivAt_id t).pow 2).div_const 2)
      refine ((h3.const_mul q.1).const_add q.2.2).congr_deriv ?_
      push_cast
      ring
    exact h1.prodMk h2

example : ∃ spline : List ℝ → List (ℝ × ℝ) → Except PyErr (ℝ → ℝ × ℝ), NaturalSplines spline := exists_naturalSplines

end Torchdyn
