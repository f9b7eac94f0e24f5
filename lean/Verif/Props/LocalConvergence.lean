import Mathlib.Analysis.Calculus.BumpFunction.FiniteDimension
import Mathlib.Analysis.Calculus.ContDiff.RCLike
import Verif.Props.Order

/-!
Property C106: convergence of fixed-step integration for smooth fields without a global Lipschitz constant (the case of
most vector fields in `torchdyn/numerics/systems.py` and of the adjoint equation, which is quadratic), started at or near
the initial value of the solution.
-/

set_option linter.unusedSectionVars false
set_option linter.unusedSimpArgs false

namespace Torchdyn

open Spec Set

variable {V A : Type} [NormedAddCommGroup V] [NormedSpace ℝ V]

/-- Along the solution `y` of `x' = f(t, x)` on `[t0, T]`, stepping with `solver` is stable and of order `p`: there are
`C` and `δ > 0` such that from every initial state within `δ` of `y t0` and on every increasing grid from `t0` in `[t0, T]`
with gaps at most `h ≤ δ`, the states differ from `y` by at most `C (h^p + ‖x0 - y t0‖)`; these states are what `odeint`
returns on every grid it accepts. -/
def ConvergesNear (p : ℕ) (solver : Solver (Except PyErr) ℝ V A) (args : A) (f : ℝ → V → V) (y : ℝ → V) (t0 T : ℝ) :
    Prop :=
  ∃ C δ, 0 ≤ C ∧ 0 < δ ∧ ∀ (x0 : V) (t1 : ℝ) (rest : List ℝ) (h : ℝ), ‖x0 - y t0‖ ≤ δ → h ≤ δ →
    (t0 :: t1 :: rest).Pairwise (· < ·) → (∀ t ∈ t0 :: t1 :: rest, t ≤ T) →
    (∀ (k : ℕ) (t t' : ℝ), (t0 :: t1 :: rest)[k]? = some t → (t0 :: t1 :: rest)[k + 1]? = some t' → t' - t ≤ h) →
    ∃ φ sol, SteppedBy solver f args φ ∧ IsTrajectory φ x0 (t0 :: t1 :: rest) sol ∧
      (Separated (t0 :: t1 :: rest) →
        odeintFixed (pureField f) x0 (t0 :: t1 :: rest) solver [] args = .ok (t0 :: t1 :: rest, sol)) ∧
      ∀ (k : ℕ) (t : ℝ) (x : V), (t0 :: t1 :: rest)[k]? = some t → sol[k]? = some x →
        ‖x - y t‖ ≤ C * (h ^ p + ‖x0 - y t0‖)

theorem ConvergesNear.converges {p : ℕ} {solver : Solver (Except PyErr) ℝ V A} {args : A} {f : ℝ → V → V} {y : ℝ → V}
    {t0 T : ℝ} (H : ConvergesNear p solver args f y t0 T) : ConvergesWithOrder p solver args f y t0 T := by
  obtain ⟨C, δ, -, hδ, H⟩ := H
  refine ⟨C, δ, hδ, fun t1 rest h hh hmono hT hgap => ?_⟩
  obtain ⟨φ, sol, h1, h2, h3, h4⟩ := H (y t0) t1 rest h (by simpa using hδ.le) hh hmono hT hgap
  refine ⟨φ, sol, h1, h2, h3, fun k t x hk hx => ?_⟩
  simpa using h4 k t x hk hx

/-- Discrete Gronwall estimate from a perturbed initial state. -/
theorem global_error_near {φ : V → ℝ → ℝ → V} {y : ℝ → V} {L δ : ℝ} (hL : 0 ≤ L) (hδ : 0 ≤ δ)
    {x0 : V} {t0 T : ℝ} {rest : List ℝ} {sol : List V}
    (hmono : (t0 :: rest).Pairwise (· ≤ ·)) (hT : ∀ t ∈ t0 :: rest, t ≤ T)
    (hstab : ∀ t t', t0 ≤ t → t ≤ t' → t' ≤ T →
      (∃ k, (t0 :: rest)[k]? = some t ∧ (t0 :: rest)[k + 1]? = some t') → ∀ x x' : V,
      ‖φ x t (t' - t) - φ x' t (t' - t)‖ ≤ (1 + L * (t' - t)) * ‖x - x'‖)
    (hloc : ∀ t t', t0 ≤ t → t ≤ t' → t' ≤ T →
      (∃ k, (t0 :: rest)[k]? = some t ∧ (t0 :: rest)[k + 1]? = some t') →
      ‖φ (y t) t (t' - t) - y t'‖ ≤ δ * (t' - t))
    (htraj : IsTrajectory φ x0 (t0 :: rest) sol) :
    ∀ (k : ℕ) (t : ℝ) (x : V), (t0 :: rest)[k]? = some t → sol[k]? = some x →
      ‖x - y t‖ ≤ (‖x0 - y t0‖ + δ * (t - t0)) * Real.exp (L * (t - t0)) := by
  intro k
  induction k with
  | zero =>
    intro t x ht hx
    rw [htraj.start] at hx
    simp only [List.getElem?_cons_zero, Option.some.injEq] at ht hx
    subst ht hx
    simp
  | succ k ih =>
    intro t' x' ht' hx'
    have hk : k + 1 < (t0 :: rest).length := (List.getElem?_eq_some_iff.1 ht').1
    obtain ⟨t, ht⟩ : ∃ t, (t0 :: rest)[k]? = some t := ⟨_, List.getElem?_eq_getElem (by omega)⟩
    obtain ⟨x, hx⟩ : ∃ x, sol[k]? = some x :=
      ⟨_, List.getElem?_eq_getElem (by rw [htraj.length_eq]; omega)⟩
    have hnext := htraj.next k t t' x ht ht' hx
    rw [hx'] at hnext
    cases hnext
    have h0t : t0 ≤ t := by
      have hm := List.mem_of_getElem? ht
      rw [List.pairwise_cons] at hmono
      rcases List.mem_cons.1 hm with rfl | hm
      · exact le_refl _
      · exact hmono.1 _ hm
    have htt' : t ≤ t' := by
      have := List.pairwise_iff_getElem.1 hmono k (k + 1) (by omega) hk (by omega)
      obtain ⟨_, rfl⟩ := List.getElem?_eq_some_iff.1 ht
      obtain ⟨_, rfl⟩ := List.getElem?_eq_some_iff.1 ht'
      exact this
    have htT := hT t' (List.mem_of_getElem? ht')
    have hI := ih t x ht hx
    have hs := hstab t t' h0t htt' htT ⟨k, ht, ht'⟩ x (y t)
    have hl := hloc t t' h0t htt' htT ⟨k, ht, ht'⟩
    have htri : ‖φ x t (t' - t) - y t'‖ ≤ ‖φ x t (t' - t) - φ (y t) t (t' - t)‖ + ‖φ (y t) t (t' - t) - y t'‖ :=
      norm_sub_le_norm_sub_add_norm_sub _ _ _
    generalize φ x t (t' - t) = X at *
    have hg0 : 0 ≤ t' - t := by linarith
    have hs0 : 0 ≤ t - t0 := by linarith
    have hst : t' - t0 = (t - t0) + (t' - t) := by ring
    rw [hst]
    generalize t' - t = g at *
    generalize t - t0 = s at *
    have hexp : 1 + L * g ≤ Real.exp (L * g) := by
      have := Real.add_one_le_exp (L * g); linarith
    have hexp0 : 1 ≤ Real.exp (L * (s + g)) := Real.one_le_exp (by positivity)
    have hLg : 0 ≤ 1 + L * g := by positivity
    have hE : Real.exp (L * (s + g)) = Real.exp (L * g) * Real.exp (L * s) := by rw [← Real.exp_add]; ring_nf
    have hn : 0 ≤ ‖x0 - y t0‖ + δ * s := by positivity
    calc ‖X - y t'‖ ≤ (1 + L * g) * ‖x - y t‖ + δ * g := by linarith
      _ ≤ (1 + L * g) * ((‖x0 - y t0‖ + δ * s) * Real.exp (L * s)) + δ * g := by
          have := mul_le_mul_of_nonneg_left hI hLg; linarith
      _ ≤ Real.exp (L * g) * ((‖x0 - y t0‖ + δ * s) * Real.exp (L * s)) + δ * g * Real.exp (L * (s + g)) := by
          refine add_le_add (mul_le_mul_of_nonneg_right hexp (by positivity)) ?_
          have : 0 ≤ δ * g := by positivity
          nlinarith
      _ = _ := by rw [hE]; ring

theorem comb_norm_le {M : ℝ} (hM : 0 ≤ M) : ∀ (row : List ℝ) (ks : List V), (∀ k ∈ ks, ‖k‖ ≤ M) →
    ‖comb row ks‖ ≤ (row.map abs).sum * M := by
  intro row
  induction row with
  | nil => intro ks _; simp [comb]
  | cons a row ih =>
    intro ks hk
    have hs : 0 ≤ (row.map abs).sum := List.sum_nonneg (by simp +contextual)
    cases ks with
    | nil =>
      simp only [comb, norm_zero, List.map_cons, List.sum_cons]
      positivity
    | cons k ks =>
      simp only [comb, List.map_cons, List.sum_cons]
      rw [add_mul]
      refine (norm_add_le _ _).trans (add_le_add ?_ (ih ks fun k' h' => hk k' (List.mem_cons_of_mem _ h')))
      rw [norm_smul, Real.norm_eq_abs]
      exact mul_le_mul_of_nonneg_left (hk k List.mem_cons_self) (abs_nonneg a)

/-- Two fields that agree near the state produce the same stages for small steps. -/
theorem rkStagesT_congr {f g : ℝ → V → V} {M R a b : ℝ} (hM : ∀ t x, ‖g t x‖ ≤ M)
    (hag : ∀ t x, a ≤ t → t ≤ b → ‖x‖ ≤ R → f t x = g t x) {x : V} {t h W : ℝ} (h0 : 0 ≤ h)
    (hx : ‖x‖ + h * (W * M) ≤ R) (ha : a ≤ t - h * W) (hb : t + h * W ≤ b) :
    ∀ (rows : List (ℝ × List ℝ)), (∀ r ∈ rows, |r.1| ≤ W ∧ (r.2.map abs).sum ≤ W) → ∀ (ks : List V), (∀ k ∈ ks, ‖k‖ ≤ M) →
      rkStagesT f x t h rows ks = rkStagesT g x t h rows ks := by
  have hM0 : 0 ≤ M := (norm_nonneg _).trans (hM 0 0)
  intro rows
  induction rows with
  | nil => intro _ ks _; rfl
  | cons r rows ih =>
    intro hr ks hks
    obtain ⟨c, row⟩ := r
    obtain ⟨hc, hw⟩ := hr (c, row) List.mem_cons_self
    simp only at hc hw
    have e : f (t + c * h) (x + h • comb row ks) = g (t + c * h) (x + h • comb row ks) := by
      have hch : |c * h| ≤ h * W := by
        rw [abs_mul, abs_of_nonneg h0, mul_comm]
        exact mul_le_mul_of_nonneg_left hc h0
      obtain ⟨h1, h2⟩ := abs_le.1 hch
      refine hag _ _ (by linarith) (by linarith) ?_
      refine (norm_add_le _ _).trans (le_trans (add_le_add le_rfl ?_) hx)
      rw [norm_smul, Real.norm_of_nonneg h0]
      refine mul_le_mul_of_nonneg_left ((comb_norm_le hM0 row ks hks).trans ?_) h0
      exact mul_le_mul_of_nonneg_right hw hM0
    rw [rkStagesT, rkStagesT, e]
    refine ih (fun r h' => hr r (List.mem_cons_of_mem _ h')) _ ?_
    intro k hk
    rcases List.mem_append.1 hk with hk | hk
    · exact hks k hk
    · rw [List.mem_singleton.1 hk]
      exact hM _ _

theorem exists_row_bound : ∀ rows : List (ℝ × List ℝ), ∃ W, 0 ≤ W ∧ ∀ r ∈ rows, |r.1| ≤ W ∧ (r.2.map abs).sum ≤ W := by
  intro rows
  induction rows with
  | nil => exact ⟨0, le_rfl, by simp⟩
  | cons r rows ih =>
    obtain ⟨W, h0, hW⟩ := ih
    refine ⟨max W (max |r.1| (r.2.map abs).sum), le_max_of_le_left h0, ?_⟩
    intro r' hr'
    rcases List.mem_cons.1 hr' with rfl | hr'
    · exact ⟨(le_max_left _ _).trans (le_max_right _ _), (le_max_right _ _).trans (le_max_right _ _)⟩
    · exact ⟨(hW r' hr').1.trans (le_max_left _ _), (hW r' hr').2.trans (le_max_left _ _)⟩

/-- Error of an explicit Runge-Kutta method of order `n + 1` from a perturbed initial state, for a Lipschitz field. -/
theorem rk_near {g : ℝ → V → V} {y : ℝ → V} {t0 T L : ℝ} (hL : 0 ≤ L) (hLip : ∀ t x x', ‖g t x - g t x'‖ ≤ L * ‖x - x'‖)
    (rows : List (ℝ × List ℝ)) (b : List ℝ) {n : ℕ}
    (hloc : ∃ C δ, 0 ≤ C ∧ 0 < δ ∧ ∀ t h, t0 ≤ t → 0 ≤ h → h ≤ δ → t + h ≤ T →
      ‖y t + h • comb b (rkStagesT g (y t) t h rows []) - y (t + h)‖ ≤ C * h ^ (n + 2)) :
    ∃ C δ, 0 ≤ C ∧ 0 < δ ∧ ∀ (x0 : V) (rest : List ℝ) (h : ℝ), 0 ≤ h → h ≤ δ →
      (t0 :: rest).Pairwise (· ≤ ·) → (∀ t ∈ t0 :: rest, t ≤ T) →
      (∀ (k : ℕ) (t t' : ℝ), (t0 :: rest)[k]? = some t → (t0 :: rest)[k + 1]? = some t' → t' - t ≤ h) →
      ∀ sol, IsTrajectory (fun x t h => x + h • comb b (rkStagesT g x t h rows [])) x0 (t0 :: rest) sol →
        ∀ (k : ℕ) (t : ℝ) (x : V), (t0 :: rest)[k]? = some t → sol[k]? = some x →
          ‖x - y t‖ ≤ C * (h ^ (n + 1) + ‖x0 - y t0‖) := by
  obtain ⟨C, δ, hC, hδ, H⟩ := hloc
  obtain ⟨Λ, hΛ, hlip⟩ := rkStagesT_lipschitz hL hδ.le hLip rows 0 le_rfl
  have hs0 : 0 ≤ (b.map abs).sum := List.sum_nonneg (by simp +contextual)
  generalize hS : (b.map abs).sum = S at hs0
  refine ⟨(1 + C * |T - t0|) * Real.exp (S * Λ * |T - t0|), δ, by positivity, hδ, ?_⟩
  intro x0 rest h hh hhδ hmono hT hgap sol htraj k t x hk hx
  have key := global_error_near (y := y) (L := S * Λ) (δ := C * h ^ (n + 1)) (T := T) (by positivity) (by positivity)
    hmono hT ?_ ?_ htraj k t x hk hx
  · have ht0 : t0 ≤ t := by
      rcases List.mem_cons.1 (List.mem_of_getElem? hk) with rfl | hm
      · exact le_rfl
      · exact (List.pairwise_cons.1 hmono).1 t hm
    have htT : t ≤ T := hT t (List.mem_of_getElem? hk)
    have h3 : |T - t0| = T - t0 := abs_of_nonneg (by linarith)
    rw [h3]
    have h1 : Real.exp (S * Λ * (t - t0)) ≤ Real.exp (S * Λ * (T - t0)) :=
      Real.exp_le_exp.2 (mul_le_mul_of_nonneg_left (by linarith) (by positivity))
    have h2 : 0 ≤ t - t0 := by linarith
    have h4 : 0 ≤ T - t0 := by linarith
    have h5 : ‖x0 - y t0‖ + C * h ^ (n + 1) * (t - t0) ≤ (1 + C * (T - t0)) * (h ^ (n + 1) + ‖x0 - y t0‖) := by
      have hp : 0 ≤ h ^ (n + 1) := by positivity
      have hn := norm_nonneg (x0 - y t0)
      have h6 : C * h ^ (n + 1) * (t - t0) ≤ C * h ^ (n + 1) * (T - t0) :=
        mul_le_mul_of_nonneg_left (by linarith) (by positivity)
      have h7 : 0 ≤ C * (T - t0) * ‖x0 - y t0‖ := by positivity
      nlinarith
    calc ‖x - y t‖ ≤ (‖x0 - y t0‖ + C * h ^ (n + 1) * (t - t0)) * Real.exp (S * Λ * (t - t0)) := key
      _ ≤ ((1 + C * (T - t0)) * (h ^ (n + 1) + ‖x0 - y t0‖)) * Real.exp (S * Λ * (T - t0)) := by
          refine mul_le_mul h5 h1 (Real.exp_pos _).le ?_
          positivity
      _ = _ := by ring
  · intro a b' h0a hab hbT ⟨j, hja, hjb⟩ z z'
    have hg := hgap j a b' hja hjb
    have h0 : 0 ≤ b' - a := sub_nonneg.2 hab
    have hc := comb_sub_le b (by positivity)
      (hlip a (b' - a) z z' [] [] h0 (hg.trans hhδ) List.Forall₂.nil)
    rw [hS] at hc
    have e : ∀ u u' : V, z + (b' - a) • u - (z' + (b' - a) • u') = (z - z') + (b' - a) • (u - u') := by
      intro u u'; rw [smul_sub]; abel
    rw [e]
    refine (norm_add_le _ _).trans ?_
    rw [norm_smul, Real.norm_of_nonneg h0, add_mul, one_mul]
    refine add_le_add le_rfl ?_
    calc (b' - a) * _ ≤ (b' - a) * (S * (Λ * ‖z - z'‖)) := mul_le_mul_of_nonneg_left hc h0
      _ = _ := by ring
  · intro a b' h0a hab hbT ⟨j, hja, hjb⟩
    have hg := hgap j a b' hja hjb
    have h0 : 0 ≤ b' - a := sub_nonneg.2 hab
    have := H a (b' - a) h0a h0 (hg.trans hhδ) (by linarith)
    rw [add_sub_cancel] at this
    refine this.trans ?_
    rw [pow_succ, ← mul_assoc]
    gcongr

/-- Convergence for a field that agrees near the solution with a bounded Lipschitz field. -/
theorem rk_cutoff {f g : ℝ → V → V} {y : ℝ → V} {t0 T L M R : ℝ} (hL : 0 ≤ L)
    (hLip : ∀ t x x', ‖g t x - g t x'‖ ≤ L * ‖x - x'‖) (hM : ∀ t x, ‖g t x‖ ≤ M)
    (hR : ∀ t ∈ Icc t0 T, ‖y t‖ + 1 ≤ R) (hag : ∀ t x, t0 - 1 ≤ t → t ≤ T + 1 → ‖x‖ ≤ R → f t x = g t x)
    {solver : Solver (Except PyErr) ℝ V A} {args : A} {φ : V → ℝ → ℝ → V} (hs : SteppedBy solver f args φ)
    (rows : List (ℝ × List ℝ)) (b : List ℝ) (hφ : ∀ x t h, φ x t h = x + h • comb b (rkStagesT f x t h rows [])) {n : ℕ}
    (hloc : ∃ C δ, 0 ≤ C ∧ 0 < δ ∧ ∀ t h, t0 ≤ t → 0 ≤ h → h ≤ δ → t + h ≤ T →
      ‖y t + h • comb b (rkStagesT g (y t) t h rows []) - y (t + h)‖ ≤ C * h ^ (n + 2)) :
    ConvergesNear (n + 1) solver args f y t0 T := by
  obtain ⟨C, δ, hC, hδ, H⟩ := rk_near hL hLip rows b hloc
  obtain ⟨W, hW0, hW⟩ := exists_row_bound rows
  have hM0 : 0 ≤ M := (norm_nonneg _).trans (hM 0 0)
  obtain ⟨ρ, hρ0, hρδ, hρ1, hρC, hρM, hρW⟩ : ∃ ρ : ℝ, 0 < ρ ∧ ρ ≤ δ ∧ ρ ≤ 1 ∧ C * (ρ + ρ) ≤ 1 / 2 ∧
      ρ * (W * M) ≤ 1 / 2 ∧ ρ * W ≤ 1 := by
    refine ⟨min δ (1 / (4 * (1 + C) + 2 * (W * M) + W)), lt_min hδ (by positivity), min_le_left _ _, ?_⟩
    generalize hq : min δ (1 / (4 * (1 + C) + 2 * (W * M) + W)) = q
    have hq1 : q ≤ 1 / (4 * (1 + C) + 2 * (W * M) + W) := hq ▸ min_le_right _ _
    have hq0 : 0 ≤ q := hq ▸ le_min hδ.le (by positivity)
    have hWM : 0 ≤ W * M := by positivity
    rw [le_div_iff₀ (by positivity)] at hq1
    have a1 : 0 ≤ q * C := by positivity
    have a2 : 0 ≤ q * (W * M) := by positivity
    have a3 : 0 ≤ q * W := by positivity
    refine ⟨?_, ?_, ?_, ?_⟩ <;> nlinarith
  refine ⟨C, ρ, hC, hρ0, ?_⟩
  intro x0 t1 rest h hx0 hhρ hmono hT hgap
  have h01 : t0 < t1 := (List.pairwise_cons.1 hmono).1 t1 (by simp)
  have hh : 0 ≤ h := (sub_nonneg.2 h01.le).trans (hgap 0 t0 t1 rfl rfl)
  have htraj := gridStates_isTrajectory (fun x t h => x + h • comb b (rkStagesT g x t h rows [])) x0 (t0 :: t1 :: rest)
    (by simp)
  generalize gridStates (fun x t h => x + h • comb b (rkStagesT g x t h rows [])) x0 (t0 :: t1 :: rest) = sol at htraj
  have hbd := H x0 (t1 :: rest) h hh (hhρ.trans hρδ) (hmono.imp le_of_lt) hT hgap sol htraj
  have hhp : h ^ (n + 1) ≤ ρ := by
    calc h ^ (n + 1) ≤ h ^ 1 := pow_le_pow_of_le_one hh (hhρ.trans hρ1) (by omega)
      _ ≤ ρ := by simpa using hhρ
  have htube : ∀ (k : ℕ) (t : ℝ) (x : V), (t0 :: t1 :: rest)[k]? = some t → sol[k]? = some x → ‖x - y t‖ ≤ 1 / 2 := by
    intro k t x hk hx
    refine (hbd k t x hk hx).trans (le_trans ?_ hρC)
    exact mul_le_mul_of_nonneg_left (add_le_add hhp hx0) hC
  have htraj' : IsTrajectory φ x0 (t0 :: t1 :: rest) sol := by
    refine ⟨htraj.length_eq, htraj.start, fun k t t' x hk hk' hx => ?_⟩
    rw [htraj.next k t t' x hk hk' hx, hφ]
    have hlen := (List.getElem?_eq_some_iff.1 hk').1
    have ht0 : t0 ≤ t := by
      rcases List.mem_cons.1 (List.mem_of_getElem? hk) with rfl | hm
      · exact le_rfl
      · exact ((List.pairwise_cons.1 hmono).1 t hm).le
    have htt' : t < t' := by
      have := List.pairwise_iff_getElem.1 hmono k (k + 1) (by omega) hlen (by omega)
      obtain ⟨_, rfl⟩ := List.getElem?_eq_some_iff.1 hk
      obtain ⟨_, rfl⟩ := List.getElem?_eq_some_iff.1 hk'
      exact this
    have htT : t ≤ T := hT t (List.mem_of_getElem? hk)
    have hd : t' - t ≤ ρ := (hgap k t t' hk hk').trans hhρ
    have hd0 : 0 ≤ t' - t := by linarith
    have hxR : ‖x‖ ≤ ‖y t‖ + 1 / 2 := by
      have h1 := htube k t x hk hx
      have h2 : ‖x‖ ≤ ‖x - y t‖ + ‖y t‖ := by simpa using norm_add_le (x - y t) (y t)
      linarith
    have hyR := hR t ⟨ht0, htT⟩
    have e1 : (t' - t) * (W * M) ≤ 1 / 2 := (mul_le_mul_of_nonneg_right hd (by positivity)).trans hρM
    have e2 : (t' - t) * W ≤ 1 := (mul_le_mul_of_nonneg_right hd hW0).trans hρW
    rw [rkStagesT_congr hM hag hd0 (W := W) (by linarith) (by linarith) (by linarith) rows hW [] (by simp)]
  refine ⟨φ, sol, hs, htraj', fun hsep => ?_, hbd⟩
  obtain ⟨sol', hrun, ht⟩ := C12_trajectory hs x0 t0 t1 rest h01.le hsep
  rw [hrun, ht.eq_gridStates (by simp), htraj'.eq_gridStates (by simp)]

/-! ### Cutting off a smooth field -/

theorem solution_bounded {f : ℝ → V → V} {y : ℝ → V} {t0 T : ℝ}
    (hy : ∀ t ∈ Icc t0 T, HasDerivWithinAt y (f t (y t)) (Icc t0 T) t) : ∃ R, 1 ≤ R ∧ ∀ t ∈ Icc t0 T, ‖y t‖ + 1 ≤ R := by
  have hyc : ContinuousOn y (Icc t0 T) := fun t ht => (hy t ht).continuousWithinAt
  obtain ⟨B, hB⟩ := isCompact_Icc.exists_bound_of_continuousOn hyc
  exact ⟨max B 0 + 1, by linarith [le_max_right B 0], fun t ht => add_le_add ((hB t ht).trans (le_max_left _ _)) le_rfl⟩

variable [FiniteDimensional ℝ V]

/-- A smooth field agrees on a bounded set with a bounded, globally Lipschitz, smooth field. -/
theorem exists_cutoff {E : Type} [NormedAddCommGroup E] [NormedSpace ℝ E] [FiniteDimensional ℝ E] {n : ℕ} (hn : n ≠ 0)
    {F : E → V} (hF : ContDiff ℝ n F) {R : ℝ} (hR : 0 < R) :
    ∃ G : E → V, ContDiff ℝ n G ∧ (∃ L, 0 ≤ L ∧ ∀ x x', ‖G x - G x'‖ ≤ L * ‖x - x'‖) ∧ (∃ M, ∀ x, ‖G x‖ ≤ M) ∧
      ∀ x, ‖x‖ ≤ R → F x = G x := by
  let χ : ContDiffBump (0 : E) := ⟨R, R + 1, hR, by linarith⟩
  have hc : HasCompactSupport (fun x => χ x • F x) := χ.hasCompactSupport.smul_right
  have hd : ContDiff ℝ n (fun x => χ x • F x) := χ.contDiff.smul hF
  obtain ⟨L, hL⟩ := ContDiff.lipschitzWith_of_hasCompactSupport hc hd (by exact_mod_cast hn)
  obtain ⟨M, hM⟩ := hc.exists_bound_of_continuous hd.continuous
  refine ⟨_, hd, ⟨L, L.coe_nonneg, fun x x' => ?_⟩, ⟨M, hM⟩, fun x hx => ?_⟩
  · have := hL.dist_le_mul x x'
    rwa [dist_eq_norm, dist_eq_norm] at this
  · have : χ x = 1 := χ.one_of_mem_closedBall (by simpa using hx)
    simp [this]

/-- Time-dependent fields: cut off in time and state. -/
theorem exists_cutoff_time {n : ℕ} (hn : n ≠ 0) {f : ℝ → V → V} (hf : ContDiff ℝ n (fun p : ℝ × V => f p.1 p.2))
    {y : ℝ → V} {t0 T : ℝ} (hy : ∀ t ∈ Icc t0 T, HasDerivWithinAt y (f t (y t)) (Icc t0 T) t) :
    ∃ (g : ℝ → V → V) (L M R : ℝ), ContDiff ℝ n (fun p : ℝ × V => g p.1 p.2) ∧ 0 ≤ L ∧
      (∀ t x x', ‖g t x - g t x'‖ ≤ L * ‖x - x'‖) ∧ (∀ t x, ‖g t x‖ ≤ M) ∧ (∀ t ∈ Icc t0 T, ‖y t‖ + 1 ≤ R) ∧
      (∀ t x, t0 - 1 ≤ t → t ≤ T + 1 → ‖x‖ ≤ R → f t x = g t x) ∧
      ∀ t ∈ Icc t0 T, HasDerivWithinAt y (g t (y t)) (Icc t0 T) t := by
  obtain ⟨R, hR1, hR⟩ := solution_bounded hy
  obtain ⟨G, hG, ⟨L, hL0, hL⟩, ⟨M, hM⟩, hFG⟩ := exists_cutoff hn hf (R := R + |t0| + |T| + 1) (by positivity)
  have hag : ∀ t x, t0 - 1 ≤ t → t ≤ T + 1 → ‖x‖ ≤ R → f t x = G (t, x) := by
    intro t x h1 h2 h3
    refine hFG (t, x) ?_
    rw [Prod.norm_def]
    refine max_le ?_ ?_
    · rw [Real.norm_eq_abs, abs_le]
      have := neg_abs_le t0
      have := le_abs_self T
      have := abs_nonneg t0
      have := abs_nonneg T
      constructor <;> linarith
    · have := abs_nonneg t0
      have := abs_nonneg T
      linarith
  refine ⟨fun t x => G (t, x), L, M, R, hG, hL0, fun t x x' => ?_, fun t x => hM _, hR, hag, fun t ht => ?_⟩
  · refine (hL _ _).trans (le_of_eq ?_)
    simp [Prod.norm_def]
  · have h1 := hag t (y t) (by linarith [ht.1]) (by linarith [ht.2]) (by linarith [hR t ht])
    have h2 := hy t ht
    rw [h1] at h2
    exact h2

/-- **C106.** `euler` is of first order along every solution of a continuously differentiable field, with no Lipschitz
constant assumed, and depends stably on the initial state. -/
theorem C106_euler (f : ℝ → V → V) (hf : ContDiff ℝ 1 (fun p : ℝ × V => f p.1 p.2)) (y : ℝ → V) (t0 T : ℝ)
    (hy : ∀ t ∈ Icc t0 T, HasDerivWithinAt y (f t (y t)) (Icc t0 T) t) (args : A) :
    ConvergesNear 1 (eulerSolver (Except PyErr) ℝ V A) args f y t0 T := by
  obtain ⟨g, L, M, R, hg, hL0, hL, hM, hR, hag, hyg⟩ := exists_cutoff_time (n := 1) one_ne_zero (by exact_mod_cast hf) hy
  refine rk_cutoff (n := 0) hL0 hL hM hR hag (euler_steppedBy f args) [(0, [])] [1] ?_ ?_
  · intro x t h
    simp [rkStagesT, comb]
  · have := rkT_local_error (n := 0) (by exact_mod_cast hg) hyg [[]] (by simp [Explicit]) [1] euler_order_conditions
    simpa using this

/-- **C106.** `midpoint` is of second order along every solution of a twice continuously differentiable field. -/
theorem C106_midpoint (f : ℝ → V → V) (hf : ContDiff ℝ 2 (fun p : ℝ × V => f p.1 p.2)) (y : ℝ → V) (t0 T : ℝ)
    (hy : ∀ t ∈ Icc t0 T, HasDerivWithinAt y (f t (y t)) (Icc t0 T) t) (args : A) :
    ConvergesNear 2 (midpointSolver (Except PyErr) ℝ V A) args f y t0 T := by
  obtain ⟨g, L, M, R, hg, hL0, hL, hM, hR, hag, hyg⟩ := exists_cutoff_time (n := 2) two_ne_zero (by exact_mod_cast hf) hy
  refine rk_cutoff (n := 1) hL0 hL hM hR hag (midpoint_steppedBy f args) [(0, []), (1 / 2, [1 / 2])] [0, 1] ?_ ?_
  · intro x t h
    rw [← midpoint_rk f x t h ()]
    rfl
  · have := rkT_local_error (n := 1) (by exact_mod_cast hg) hyg [[], [1 / 2]] (by simp [Explicit]) [0, 1]
      midpoint_order_conditions
    simpa using this

/-- **C106 (partial: autonomous fields).** `rk4` is of fourth order along every solution of an autonomous field with four
continuous derivatives. Missing: time-dependent fields, where it is false (`C82_rk4_time_refuted`). -/
theorem C106_rk4_partial (F : V → V) (hF : ContDiff ℝ 4 F) (y : ℝ → V) (t0 T : ℝ)
    (hy : ∀ t ∈ Icc t0 T, HasDerivWithinAt y (F (y t)) (Icc t0 T) t) (args : A) :
    ConvergesNear 4 (rk4Solver (Except PyErr) ℝ V A) args (fun _ x => F x) y t0 T := by
  obtain ⟨R, hR1, hR⟩ := solution_bounded (f := fun _ x => F x) hy
  obtain ⟨G, hG, ⟨L, hL0, hL⟩, ⟨M, hM⟩, hFG⟩ := exists_cutoff (n := 4) four_ne_zero (by exact_mod_cast hF)
    (R := R) (by linarith)
  have hyG : ∀ t ∈ Icc t0 T, HasDerivWithinAt y (G (y t)) (Icc t0 T) t := by
    intro t ht
    rw [← hFG (y t) (by linarith [hR t ht])]
    exact hy t ht
  have hrows : ((butcherRows (constructRk4 ℝ)).map fun row => (row.sum, row)).map Prod.snd = butcherRows (constructRk4 ℝ) := by
    simp [Function.comp_def]
  refine rk_cutoff (n := 3) (f := fun _ x => F x) (g := fun _ x => G x) hL0 (fun _ => hL) (fun _ => hM) hR
    (fun _ x _ _ hx => hFG x hx) (rk4_steppedBy _ args)
    ((butcherRows (constructRk4 ℝ)).map fun row => (row.sum, row)) (constructRk4 ℝ).bsol ?_ ?_
  · intro x t h
    rw [rkStagesT_autonomous, hrows]
    exact rk4_rk F x t h ()
  · simp only [rkStagesT_autonomous, hrows]
    exact rk_local_error (n := 3) (by exact_mod_cast hG) hyG _ (by simp [Explicit, butcherRows, constructRk4]) _
      (fun τ hτ => by
        rw [rk4_rows_cast, rk4_bsol_cast, orderDefect_cast, C05_rk4_order_conditions_partial τ hτ, Rat.cast_zero])

/-- Non-vacuity: `x' = x²`, which has no global Lipschitz constant and whose solution `1 / (1 - t)` blows up at `1`; on
`[0, 1/2]` `rk4` converges with order four. -/
example : ConvergesNear 4 (rk4Solver (Except PyErr) ℝ ℝ Unit) () (fun _ x => x ^ 2) (fun t => (1 - t)⁻¹) 0 (1 / 2) := by
  refine C106_rk4_partial (fun x => x ^ 2) (by fun_prop) _ 0 (1 / 2) (fun t ht => ?_) ()
  have hne : 1 - t ≠ 0 := by have := ht.2; intro h; linarith
  have h1 : HasDerivAt (fun t : ℝ => 1 - t) (-1) t := by simpa using (hasDerivAt_id t).const_sub 1
  have h2 := h1.inv hne
  refine (h2.congr_deriv ?_).hasDerivWithinAt
  field_simp

end Torchdyn
