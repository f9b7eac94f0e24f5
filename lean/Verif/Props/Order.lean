import Mathlib.Analysis.Calculus.Deriv.Inv
import Mathlib.Analysis.Calculus.Deriv.Prod
import Mathlib.Analysis.Calculus.ContDiff.Operations
import Verif.Proofs.Order
import Verif.Proofs.Convergence
import Verif.Props.Structure
import Verif.Props.OneStep
import Verif.Props.FixedNumerics

/-!
Properties C81 and C82: order of accuracy of the steps on smooth (nonlinear, time-dependent) fields, and of whole fixed-step
integrations.
-/

set_option linter.unusedSectionVars false
set_option linter.unusedSimpArgs false

namespace Torchdyn

open Spec Set

variable {V A : Type} [NormedAddCommGroup V] [NormedSpace ℝ V]

/-! ### Order conditions over the reals -/

theorem dot_cast (u v : List ℚ) : dot (u.map (Rat.cast : ℚ → ℝ)) (v.map Rat.cast) = ((dot u v : ℚ) : ℝ) := by
  induction u generalizing v with
  | nil => cases v <;> simp [dot]
  | cons a u ih => cases v with
    | nil => simp [dot]
    | cons b v => simp [dot, ih]

theorem dot_zipWith_sub {K : Type} [Field K] : ∀ (u v w : List K), u.length = v.length →
    dot (List.zipWith (· - ·) u v) w = dot u w - dot v w := by
  intro u
  induction u with
  | nil => intro v w h; cases v <;> simp_all [dot]
  | cons a u ih =>
    intro v w h
    cases v with
    | nil => simp at h
    | cons b v => cases w with
      | nil => simp [dot]
      | cons c w =>
        simp only [List.zipWith_cons_cons, dot]
        rw [ih v w (by simpa using h)]
        ring

mutual
theorem stageWeights_cast (M : List (List ℚ)) : ∀ τ : RTree,
    τ.stageWeights (M.map (List.map (Rat.cast : ℚ → ℝ))) = (τ.stageWeights M).map Rat.cast
  | .node ch => by rw [RTree.stageWeights, RTree.stageWeights]; exact forestWeights_cast M ch
theorem forestWeights_cast (M : List (List ℚ)) : ∀ ch : List RTree,
    RTree.forestWeights (M.map (List.map (Rat.cast : ℚ → ℝ))) ch = (RTree.forestWeights M ch).map Rat.cast
  | [] => by simp [RTree.forestWeights, Function.comp_def]
  | τ :: rest => by
    rw [RTree.forestWeights, RTree.forestWeights, stageWeights_cast M τ, forestWeights_cast M rest, List.map_map,
      List.map_zipWith, List.zipWith_map_right, List.zipWith_map_left, List.zipWith_map_left]
    simp [dot_cast]
end

theorem orderDefect_cast (M : List (List ℚ)) (b : List ℚ) (τ : RTree) :
    orderDefect (M.map (List.map (Rat.cast : ℚ → ℝ))) (b.map Rat.cast) τ = ((orderDefect M b τ : ℚ) : ℝ) := by
  rw [orderDefect, orderDefect, stageWeights_cast, dot_cast]
  push_cast
  rfl

theorem dopri5_rows_cast :
    butcherRows (constructDopri5 ℝ) = (butcherRows (constructDopri5 ℚ)).map (List.map (Rat.cast : ℚ → ℝ)) := by
  simp [butcherRows, constructDopri5]

theorem dopri5_bsol_cast : (constructDopri5 ℝ).bsol = (constructDopri5 ℚ).bsol.map (Rat.cast : ℚ → ℝ) := by
  simp [constructDopri5, dopri5Bsol]

theorem dopri5_berr_cast : (constructDopri5 ℝ).berr = (constructDopri5 ℚ).berr.map (Rat.cast : ℚ → ℝ) := by
  simp [constructDopri5, dopri5Bsol, dopri5Bhat]

theorem rk4_rows_cast :
    butcherRows (constructRk4 ℝ) = (butcherRows (constructRk4 ℚ)).map (List.map (Rat.cast : ℚ → ℝ)) := by
  simp [butcherRows, constructRk4]

theorem rk4_bsol_cast : (constructRk4 ℝ).bsol = (constructRk4 ℚ).bsol.map (Rat.cast : ℚ → ℝ) := by
  simp [constructRk4]

/-! ### The steps as Runge-Kutta methods on an autonomous field -/

/-- Time as an additional component of the state. -/
def withTime (f : ℝ → V → V) : ℝ × V → ℝ × V := fun p => (1, f p.1 p.2)

theorem withTime_contDiff {f : ℝ → V → V} {n : WithTop ℕ∞} (hf : ContDiff ℝ n (fun p : ℝ × V => f p.1 p.2)) :
    ContDiff ℝ n (withTime f) := contDiff_const.prodMk hf

theorem withTime_solution {f : ℝ → V → V} {y : ℝ → V} {t0 T : ℝ}
    (hy : ∀ t ∈ Icc t0 T, HasDerivWithinAt y (f t (y t)) (Icc t0 T) t) :
    ∀ t ∈ Icc t0 T, HasDerivWithinAt (fun t => (t, y t)) (withTime f (t, y t)) (Icc t0 T) t :=
  fun t ht => (hasDerivWithinAt_id t _).prodMk (hy t ht)

/-- The stages with time-dependent field and nodes `t + h c`. -/
def rkStagesT (f : ℝ → V → V) (x : V) (t h : ℝ) : List (ℝ × List ℝ) → List V → List V
  | [], ks => ks
  | (c, row) :: rows, ks => rkStagesT f x t h rows (ks ++ [f (t + c * h) (x + h • comb row ks)])

theorem comb_prod : ∀ (row : List ℝ) (ks : List V), row.length ≤ ks.length →
    comb row (ks.map fun k => ((1 : ℝ), k)) = (row.sum, comb row ks) := by
  intro row
  induction row with
  | nil => intro ks _; cases ks <;> simp [comb] <;> rfl
  | cons a row ih =>
    intro ks h
    cases ks with
    | nil => simp at h
    | cons k ks =>
      rw [List.map_cons, comb, ih ks (by simpa using h), List.sum_cons, comb]
      simp

theorem rkStages_withTime (f : ℝ → V → V) (x : V) (t h : ℝ) : ∀ (rows : List (List ℝ)) (ks : List V),
    Explicit ks.length rows →
    rkStages (withTime f) (t, x) h rows (ks.map fun k => ((1 : ℝ), k)) =
      (rkStagesT f x t h (rows.map fun row => (row.sum, row)) ks).map fun k => ((1 : ℝ), k) := by
  intro rows
  induction rows with
  | nil => intro ks _; rfl
  | cons row rows ih =>
    intro ks hex
    rw [rkStages, List.map_cons, rkStagesT, ← ih _ (by simpa using hex.2), comb_prod row ks hex.1]
    simp only [List.map_append, List.map_cons, List.map_nil, withTime]
    simp [mul_comm]

theorem rk7_rk (f : ℝ → V → V) (x : V) (t h : ℝ) (args : A) (tab : Tableau ℝ) {c0 c1 c2 c3 c4 c5 a00 a10 a11 a20 a21 a22 a30
    a31 a32 a33 a40 a41 a42 a43 a44 a50 a51 a52 a53 a54 a55 b0 b1 b2 b3 b4 b5 e0 e1 e2 e3 e4 e5 e6 : ℝ}
    (htab : tab = ⟨[c0, c1, c2, c3, c4, c5], [[a00], [a10, a11], [a20, a21, a22], [a30, a31, a32, a33],
      [a40, a41, a42, a43, a44], [a50, a51, a52, a53, a54, a55]], [b0, b1, b2, b3, b4, b5, 0],
      [e0, e1, e2, e3, e4, e5, e6]⟩) :
    let ks := rkStagesT f x t h ((0 :: tab.c).zip (butcherRows tab)) []
    (rk7Step (m := Id) tab (pureField f) x t h none args).newState = x + h • comb tab.bsol ks ∧
    (rk7Step (m := Id) tab (pureField f) x t h none args).errEst = some (h • comb tab.berr ks) := by
  intro ks
  subst htab
  simp only [ks, rk7Step, firstStage, pureField, butcherRows, rkStagesT, comb, nth, nth2, pure, bind,
    List.getD_cons_zero, List.getD_cons_succ, List.nil_append, List.cons_append, List.zip_cons_cons, List.zip_nil_left,
    smul_add, smul_smul, ← add_assoc, add_zero, smul_zero, zero_mul, zero_smul, mul_zero, StepOut.newState, StepOut.errEst,
    and_self]

theorem dopri5_rk (f : ℝ → V → V) (x : V) (t h : ℝ) (args : A) :
    let ks := rkStagesT f x t h ((0 :: (constructDopri5 ℝ).c).zip (butcherRows (constructDopri5 ℝ))) []
    (dopri5Step (m := Id) (pureField f) x t h none args).newState = x + h • comb (constructDopri5 ℝ).bsol ks ∧
    (dopri5Step (m := Id) (pureField f) x t h none args).errEst = some (h • comb (constructDopri5 ℝ).berr ks) :=
  rk7_rk f x t h args _ rfl

theorem tsit5_rk (f : ℝ → V → V) (x : V) (t h : ℝ) (args : A) :
    let ks := rkStagesT f x t h ((0 :: (constructTsit5 ℝ).c).zip (butcherRows (constructTsit5 ℝ))) []
    (tsit5Step (m := Id) (pureField f) x t h none args).newState = x + h • comb (constructTsit5 ℝ).bsol ks ∧
    (tsit5Step (m := Id) (pureField f) x t h none args).errEst = some (h • comb (constructTsit5 ℝ).berr ks) :=
  rk7_rk f x t h args _ rfl

theorem rkStagesT_autonomous (F : V → V) (x : V) (t h : ℝ) : ∀ (rows : List (ℝ × List ℝ)) (ks : List V),
    rkStagesT (fun _ => F) x t h rows ks = rkStages F x h (rows.map Prod.snd) ks := by
  intro rows
  induction rows with
  | nil => intro ks; rfl
  | cons r rows ih => intro ks; rw [rkStagesT, ih]; rfl

theorem rk4_rk (F : V → V) (x : V) (t h : ℝ) (args : A) :
    (rk4Step (m := Id) (constructRk4 ℝ) (pureField fun _ y => F y) x t h none args).newState =
      x + h • comb (constructRk4 ℝ).bsol (rkStages F x h (butcherRows (constructRk4 ℝ)) []) := by
  simp only [rk4Step, firstStage, pureField, butcherRows, constructRk4, rkStages, comb, nth, nth2, pure, bind,
    List.getD_cons_zero, List.getD_cons_succ, List.nil_append, List.cons_append,
    smul_add, smul_smul, ← add_assoc, add_zero, smul_zero, zero_mul, zero_smul, mul_zero, StepOut.newState]

theorem midpoint_rk (f : ℝ → V → V) (x : V) (t h : ℝ) (args : A) :
    (midpointStep (m := Id) (pureField f) x t h none args).newState =
      x + h • comb [0, 1] (rkStagesT f x t h [(0, []), (1 / 2, [1 / 2])] []) := by
  simp only [midpointStep, firstStage, pureField, rkStagesT, comb, pure, bind, List.nil_append, List.cons_append,
    smul_add, smul_smul, ← add_assoc, add_zero, smul_zero, zero_mul, zero_smul, mul_zero, StepOut.newState, zero_add, mul_one,
    mul_comm h, one_mul]

theorem snd_comb : ∀ (row : List ℝ) (ks : List V), (comb row (ks.map fun k => ((1 : ℝ), k))).2 = comb row ks := by
  intro row
  induction row with
  | nil => intro ks; cases ks <;> simp [comb]
  | cons a row ih => intro ks; cases ks with
    | nil => simp [comb]
    | cons k ks => simp [comb, ih]

theorem rkT_local_error {f : ℝ → V → V} {n : ℕ} (hf : ContDiff ℝ (n + 1) (fun p : ℝ × V => f p.1 p.2)) {y : ℝ → V} {t0 T : ℝ}
    (hy : ∀ t ∈ Icc t0 T, HasDerivWithinAt y (f t (y t)) (Icc t0 T) t) (M : List (List ℝ)) (hM : Explicit 0 M) (b : List ℝ)
    (hord : ∀ τ : RTree, τ.order ≤ n + 1 → orderDefect M b τ = 0) :
    ∃ C δ, 0 ≤ C ∧ 0 < δ ∧ ∀ t h, t0 ≤ t → 0 ≤ h → h ≤ δ → t + h ≤ T →
      ‖y t + h • comb b (rkStagesT f (y t) t h (M.map fun row => (row.sum, row)) []) - y (t + h)‖ ≤ C * h ^ (n + 2) := by
  obtain ⟨C, δ, hC, hδ, H⟩ := rk_local_error (withTime_contDiff hf) (withTime_solution hy) M hM b hord
  refine ⟨C, δ, hC, hδ, fun t h h1 h2 h3 h4 => ?_⟩
  refine le_trans ?_ (H t h h1 h2 h3 h4)
  have e := rkStages_withTime f (y t) t h M [] hM
  rw [List.map_nil] at e
  rw [e]
  refine le_trans (le_of_eq ?_) (norm_snd_le _)
  simp [snd_comb]

theorem rkT_small {f : ℝ → V → V} {n : ℕ} (hf : ContDiff ℝ (n + 1) (fun p : ℝ × V => f p.1 p.2)) {y : ℝ → V} {t0 T : ℝ}
    (hy : ContinuousOn y (Icc t0 T)) (M : List (List ℝ)) (hM : Explicit 0 M) (b : List ℝ)
    (hord : ∀ τ : RTree, τ.order ≤ n + 1 → dot b (τ.stageWeights M) = 0) :
    ∃ C δ, 0 ≤ C ∧ 0 < δ ∧ ∀ t h, t0 ≤ t → 0 ≤ h → h ≤ δ → t + h ≤ T →
      ‖h • comb b (rkStagesT f (y t) t h (M.map fun row => (row.sum, row)) [])‖ ≤ C * h ^ (n + 2) := by
  obtain ⟨C, δ, hC, hδ, H⟩ := rk_small (withTime_contDiff hf) (y := fun t => (t, y t))
    (continuousOn_id.prodMk hy) M hM b hord
  refine ⟨C, δ, hC, hδ, fun t h h1 h2 h3 h4 => ?_⟩
  refine le_trans ?_ (H t h h1 h2 h3 h4)
  have e := rkStages_withTime f (y t) t h M [] hM
  rw [List.map_nil] at e
  rw [e]
  refine le_trans (le_of_eq ?_) (norm_snd_le _)
  simp [snd_comb]

theorem dopri5_explicit : Explicit 0 (butcherRows (constructDopri5 ℝ)) := by
  simp [Explicit, butcherRows, constructDopri5]

theorem dopri5_nodes : (0 :: (constructDopri5 ℝ).c).zip (butcherRows (constructDopri5 ℝ)) =
    (butcherRows (constructDopri5 ℝ)).map fun row => (row.sum, row) := by
  simp only [butcherRows, constructDopri5, List.zip_cons_cons, List.zip_nil_left, List.map_cons, List.map_nil, List.sum_cons,
    List.sum_nil]
  norm_num

/-! ### The properties -/

/-- **C81.** Along every solution of `x' = f(t, x)` with `f` five times continuously differentiable, one `dopri5` step of
size `h` has an error of at most `C h^6`, and its error estimate is at most `C h^5`. -/
theorem C81_dopri5_order (f : ℝ → V → V) (hf : ContDiff ℝ 5 (fun p : ℝ × V => f p.1 p.2)) (y : ℝ → V) (t0 T : ℝ)
    (hy : ∀ t ∈ Icc t0 T, HasDerivWithinAt y (f t (y t)) (Icc t0 T) t) (args : A) :
    ∃ C δ, 0 < δ ∧ ∀ t h, t0 ≤ t → 0 ≤ h → h ≤ δ → t + h ≤ T →
      ‖(dopri5Step (m := Id) (pureField f) (y t) t h none args).newState - y (t + h)‖ ≤ C * h ^ 6 ∧
      ∃ e, (dopri5Step (m := Id) (pureField f) (y t) t h none args).errEst = some e ∧ ‖e‖ ≤ C * h ^ 5 := by
  have hyc : ContinuousOn y (Icc t0 T) := fun t ht => (hy t ht).continuousWithinAt
  obtain ⟨C, δ, hC, hδ, H⟩ := rkT_local_error (n := 4) (by exact_mod_cast hf) hy _ dopri5_explicit (constructDopri5 ℝ).bsol
    (fun τ hτ => by
      rw [dopri5_rows_cast, dopri5_bsol_cast, orderDefect_cast, C03_dopri5_order_conditions τ hτ, Rat.cast_zero])
  obtain ⟨C', δ', hC', hδ', H'⟩ := rkT_small (n := 3) (hf.of_le (by norm_num)) hyc _ dopri5_explicit (constructDopri5 ℝ).berr
    (fun τ hτ => by
      rw [dopri5_rows_cast, dopri5_berr_cast, stageWeights_cast, dot_cast]
      have h1 := C03_dopri5_order_conditions τ (by omega)
      have h2 := C03_dopri5_embedded_order_conditions τ hτ
      rw [orderDefect] at h1 h2
      rw [dot_zipWith_sub _ _ _ (by simp [constructDopri5, dopri5Bsol, dopri5Bhat])] at h2
      have : dot (constructDopri5 ℚ).berr (τ.stageWeights (butcherRows (constructDopri5 ℚ))) = 0 := by linarith
      rw [this, Rat.cast_zero])
  refine ⟨max C C', min δ δ', lt_min hδ hδ', fun t h h1 h2 h3 h4 => ?_⟩
  obtain ⟨e1, e2⟩ := dopri5_rk f (y t) t h args
  rw [dopri5_nodes] at e1 e2
  have g1 := H t h h1 h2 (h3.trans (min_le_left _ _)) h4
  have g2 := H' t h h1 h2 (h3.trans (min_le_right _ _)) h4
  refine ⟨?_, _, e2, ?_⟩
  · rw [e1]
    exact g1.trans (mul_le_mul_of_nonneg_right (le_max_left _ _) (by positivity))
  · exact g2.trans (mul_le_mul_of_nonneg_right (le_max_right _ _) (by positivity))

/-- C81 applied to a nonlinear time-dependent field: `x' = t x²` with the solution `2 / (2 - t²)` on `[0, 1]`. -/
example : ∃ C δ, 0 < δ ∧ ∀ t h : ℝ, 0 ≤ t → 0 ≤ h → h ≤ δ → t + h ≤ 1 →
    ‖(dopri5Step (m := Id) (pureField fun t x : ℝ => t * x ^ 2) (2 / (2 - t ^ 2)) t h none ()).newState -
      2 / (2 - (t + h) ^ 2)‖ ≤ C * h ^ 6 ∧
    ∃ e, (dopri5Step (m := Id) (pureField fun t x : ℝ => t * x ^ 2) (2 / (2 - t ^ 2)) t h none ()).errEst = some e ∧
      ‖e‖ ≤ C * h ^ 5 := by
  refine C81_dopri5_order (fun t x => t * x ^ 2) (by fun_prop) (fun t => 2 / (2 - t ^ 2)) 0 1 ?_ ()
  intro t ht
  have hne : 2 - t ^ 2 ≠ 0 := by nlinarith [ht.1, ht.2]
  have h1 : HasDerivAt (fun t : ℝ => 2 - t ^ 2) (-(2 * t)) t := by
    have := (hasDerivAt_pow 2 t).const_sub 2
    simpa using this
  have h := HasDerivAt.fun_div (hasDerivAt_const t (2 : ℝ)) h1 hne
  refine (h.congr_deriv ?_).hasDerivWithinAt
  field_simp
  ring

theorem tsit5_rows_cast :
    butcherRows (constructTsit5 ℝ) = (butcherRows (constructTsit5 ℚ)).map (List.map (Rat.cast : ℚ → ℝ)) := by
  simp [butcherRows, constructTsit5]

theorem tsit5_bsol_cast : (constructTsit5 ℝ).bsol = (constructTsit5 ℚ).bsol.map (Rat.cast : ℚ → ℝ) := by
  simp [constructTsit5, tsit5Bsol]

theorem tsit5_explicit : Explicit 0 (butcherRows (constructTsit5 ℝ)) := by
  simp [Explicit, butcherRows, constructTsit5]

/-- **C81.** The same for `tsit5` on autonomous fields: its decimals satisfy the order conditions up to `1e-80`, so the error
is at most `C h^6 + 1e-80 D h`. -/
theorem C81_tsit5_order (F : V → V) (hF : ContDiff ℝ 5 F) (y : ℝ → V) (t0 T : ℝ)
    (hy : ∀ t ∈ Icc t0 T, HasDerivWithinAt y (F (y t)) (Icc t0 T) t) (args : A) :
    ∃ C D δ, 0 < δ ∧ ∀ t h, t0 ≤ t → 0 ≤ h → h ≤ δ → t + h ≤ T →
      ‖(tsit5Step (m := Id) (pureField fun _ x => F x) (y t) t h none args).newState - y (t + h)‖ ≤
        C * h ^ 6 + 1 / 10 ^ 80 * (D * h) := by
  obtain ⟨C, D, δ, -, -, hδ, H⟩ := rk_local_error_approx (n := 4) (by exact_mod_cast hF) hy _ tsit5_explicit
    (constructTsit5 ℝ).bsol (1 / 10 ^ 80) (fun τ hτ => by
      have := C04_tsit5_order_conditions τ hτ
      rw [tsit5_rows_cast, tsit5_bsol_cast, orderDefect_cast, ← Rat.cast_abs]
      calc ((|orderDefect (butcherRows (constructTsit5 ℚ)) (constructTsit5 ℚ).bsol τ| : ℚ) : ℝ) ≤ ((1 / 10 ^ 80 : ℚ) : ℝ) :=
            Rat.cast_le.2 this
        _ = 1 / 10 ^ 80 := by norm_num)
  refine ⟨C, D, δ, hδ, fun t h h1 h2 h3 h4 => ?_⟩
  obtain ⟨e1, -⟩ := tsit5_rk (fun _ => F) (y t) t h args
  rw [rkStagesT_autonomous] at e1
  have : ((0 :: (constructTsit5 ℝ).c).zip (butcherRows (constructTsit5 ℝ))).map Prod.snd = butcherRows (constructTsit5 ℝ) := by
    simp [butcherRows, constructTsit5]
  rw [this] at e1
  rw [e1]
  exact H t h h1 h2 h3 h4

/-! ### Whole integrations -/

theorem comb_sub_le {Λ d : ℝ} : ∀ (row : List ℝ) {ks ks' : List V}, 0 ≤ Λ * d →
    List.Forall₂ (fun k k' => ‖k - k'‖ ≤ Λ * d) ks ks' →
    ‖comb row ks - comb row ks'‖ ≤ (row.map abs).sum * (Λ * d) := by
  intro row
  induction row with
  | nil => intro ks ks' hd _; simp [comb]
  | cons a row ih =>
    intro ks ks' hd H
    have hs : 0 ≤ (row.map abs).sum := List.sum_nonneg (by simp +contextual)
    cases H with
    | nil =>
      simp only [comb, sub_self, norm_zero, List.map_cons, List.sum_cons]
      positivity
    | @cons k k' ks ks' hk H =>
      simp only [comb, List.map_cons, List.sum_cons]
      have e : a • k + comb row ks - (a • k' + comb row ks') = a • (k - k') + (comb row ks - comb row ks') := by
        rw [smul_sub]; abel
      rw [e, add_mul]
      refine (norm_add_le _ _).trans (add_le_add ?_ (ih hd H))
      rw [norm_smul, Real.norm_eq_abs]
      exact mul_le_mul_of_nonneg_left hk (abs_nonneg a)

/-- The stages are Lipschitz in the state, uniformly in time and for step sizes at most `H`. -/
theorem rkStagesT_lipschitz {f : ℝ → V → V} {L H : ℝ} (hL : 0 ≤ L) (hH : 0 ≤ H)
    (hLip : ∀ t x x', ‖f t x - f t x'‖ ≤ L * ‖x - x'‖) : ∀ (rows : List (ℝ × List ℝ)) (Λ : ℝ), 0 ≤ Λ →
    ∃ Λ', 0 ≤ Λ' ∧ ∀ (t h : ℝ) (x x' : V) (ks ks' : List V), 0 ≤ h → h ≤ H →
      List.Forall₂ (fun k k' => ‖k - k'‖ ≤ Λ * ‖x - x'‖) ks ks' →
      List.Forall₂ (fun k k' => ‖k - k'‖ ≤ Λ' * ‖x - x'‖) (rkStagesT f x t h rows ks) (rkStagesT f x' t h rows ks') := by
  intro rows
  induction rows with
  | nil => intro Λ hΛ; exact ⟨Λ, hΛ, fun _ _ _ _ _ _ _ _ h => h⟩
  | cons r rows ih =>
    intro Λ hΛ
    obtain ⟨c, row⟩ := r
    set S := (row.map abs).sum with hS
    have hs : 0 ≤ S := List.sum_nonneg (by simp +contextual)
    obtain ⟨Λ', h1, h2⟩ := ih (max Λ (L * (1 + H * (S * Λ)))) (le_max_of_le_left hΛ)
    refine ⟨Λ', h1, fun t h x x' ks ks' h0 hh hks => ?_⟩
    rw [rkStagesT, rkStagesT]
    refine h2 t h x x' _ _ h0 hh (List.rel_append ?_ (List.Forall₂.cons ?_ List.Forall₂.nil))
    · exact hks.imp fun _ _ hk => hk.trans (mul_le_mul_of_nonneg_right (le_max_left _ _) (norm_nonneg _))
    · refine (hLip _ _ _).trans ?_
      have hc := comb_sub_le row (by positivity) hks
      have e : x + h • comb row ks - (x' + h • comb row ks') = (x - x') + h • (comb row ks - comb row ks') := by
        rw [smul_sub]; abel
      have h3 : ‖x + h • comb row ks - (x' + h • comb row ks')‖ ≤ (1 + H * (S * Λ)) * ‖x - x'‖ := by
        rw [e]
        refine (norm_add_le _ _).trans ?_
        rw [norm_smul, Real.norm_of_nonneg h0, add_mul, one_mul]
        refine add_le_add le_rfl ?_
        calc h * ‖comb row ks - comb row ks'‖ ≤ H * (S * (Λ * ‖x - x'‖)) := by gcongr
          _ = _ := by ring
      calc L * ‖x + h • comb row ks - (x' + h • comb row ks')‖ ≤ L * ((1 + H * (S * Λ)) * ‖x - x'‖) := by gcongr
        _ = L * (1 + H * (S * Λ)) * ‖x - x'‖ := by ring
        _ ≤ _ := mul_le_mul_of_nonneg_right (le_max_right _ _) (norm_nonneg _)

/-- Along the solution `y` of `x' = f(t, x)` on `[t0, T]`, stepping with `solver` has order `p`: on every increasing grid
from `t0` in `[t0, T]` with gaps at most `h` the states differ from `y` by at most `C h^p`; these states are what `odeint`
returns on every grid it accepts. -/
def ConvergesWithOrder (p : ℕ) (solver : Solver (Except PyErr) ℝ V A) (args : A) (f : ℝ → V → V) (y : ℝ → V) (t0 T : ℝ) :
    Prop :=
  ∃ C δ, 0 < δ ∧ ∀ (t1 : ℝ) (rest : List ℝ) (h : ℝ), h ≤ δ → (t0 :: t1 :: rest).Pairwise (· < ·) →
    (∀ t ∈ t0 :: t1 :: rest, t ≤ T) →
    (∀ (k : ℕ) (t t' : ℝ), (t0 :: t1 :: rest)[k]? = some t → (t0 :: t1 :: rest)[k + 1]? = some t' → t' - t ≤ h) →
    ∃ φ sol, SteppedBy solver f args φ ∧ IsTrajectory φ (y t0) (t0 :: t1 :: rest) sol ∧
      (Separated (t0 :: t1 :: rest) →
        odeintFixed (pureField f) (y t0) (t0 :: t1 :: rest) solver [] args = .ok (t0 :: t1 :: rest, sol)) ∧
      ∀ (k : ℕ) (t : ℝ) (x : V), (t0 :: t1 :: rest)[k]? = some t → sol[k]? = some x → ‖x - y t‖ ≤ C * h ^ p

/-- Global error of a fixed-step integration with an explicit Runge-Kutta method of order `n + 1`. -/
theorem rk_global {f : ℝ → V → V} {y : ℝ → V} {t0 T L : ℝ} (hL : 0 ≤ L) (hLip : ∀ t x x', ‖f t x - f t x'‖ ≤ L * ‖x - x'‖)
    {solver : Solver (Except PyErr) ℝ V A} {args : A} {φ : V → ℝ → ℝ → V} (hs : SteppedBy solver f args φ)
    (rows : List (ℝ × List ℝ)) (b : List ℝ) (hφ : ∀ x t h, φ x t h = x + h • comb b (rkStagesT f x t h rows [])) {n : ℕ}
    (hloc : ∃ C δ, 0 ≤ C ∧ 0 < δ ∧ ∀ t h, t0 ≤ t → 0 ≤ h → h ≤ δ → t + h ≤ T →
      ‖y t + h • comb b (rkStagesT f (y t) t h rows []) - y (t + h)‖ ≤ C * h ^ (n + 2)) :
    ConvergesWithOrder (n + 1) solver args f y t0 T := by
  obtain ⟨C, δ, hC, hδ, H⟩ := hloc
  obtain ⟨Λ, hΛ, hlip⟩ := rkStagesT_lipschitz hL hδ.le hLip rows 0 le_rfl
  set S := (b.map abs).sum with hS
  have hs0 : 0 ≤ S := List.sum_nonneg (by simp +contextual)
  refine ⟨C * (T - t0) * Real.exp (S * Λ * (T - t0)), δ, hδ, ?_⟩
  intro t1 rest h hhδ hmono hT hgap
  have h01 : t0 < t1 := (List.pairwise_cons.1 hmono).1 t1 (by simp)
  have htraj := gridStates_isTrajectory φ (y t0) (t0 :: t1 :: rest) (by simp)
  refine ⟨φ, _, hs, htraj, fun hsep => ?_, ?_⟩
  · obtain ⟨sol, hrun, ht⟩ := C12_trajectory hs (y t0) t0 t1 rest h01.le hsep
    rw [hrun, ht.eq_gridStates (by simp)]
  have hh : 0 ≤ h := (sub_nonneg.2 h01.le).trans (hgap 0 t0 t1 rfl rfl)
  intro k t x hk hx
  have key := global_error_bound (L := S * Λ) (δ := C * h ^ (n + 1)) (T := T) (by positivity) (by positivity)
    (hmono.imp le_of_lt) hT ?_ ?_ htraj k t x hk hx
  · have ht0 : t0 ≤ t := by
      rcases List.mem_cons.1 (List.mem_of_getElem? hk) with rfl | hm
      · exact le_rfl
      · exact ((List.pairwise_cons.1 hmono).1 t hm).le
    have htT : t ≤ T := hT t (List.mem_of_getElem? hk)
    have h1 : Real.exp (S * Λ * (t - t0)) ≤ Real.exp (S * Λ * (T - t0)) :=
      Real.exp_le_exp.2 (mul_le_mul_of_nonneg_left (by linarith) (by positivity))
    calc ‖x - y t‖ ≤ C * h ^ (n + 1) * (t - t0) * Real.exp (S * Λ * (t - t0)) := key
      _ ≤ C * h ^ (n + 1) * (T - t0) * Real.exp (S * Λ * (T - t0)) := by
          have h2 : 0 ≤ t - t0 := by linarith
          have h3 : 0 ≤ T - t0 := by linarith
          gcongr
      _ = _ := by ring
  · intro a b' h0a hab hbT ⟨j, hja, hjb⟩ z z'
    have hg := hgap j a b' hja hjb
    have h0 : 0 ≤ b' - a := sub_nonneg.2 hab
    rw [hφ, hφ]
    have hc := comb_sub_le b (by positivity)
      (hlip a (b' - a) z z' [] [] h0 (hg.trans hhδ) List.Forall₂.nil)
    have e : ∀ u u' : V, z + (b' - a) • u - (z' + (b' - a) • u') = (z - z') + (b' - a) • (u - u') := by
      intro u u'; rw [smul_sub]; abel
    rw [e]
    refine (norm_add_le _ _).trans ?_
    rw [norm_smul, Real.norm_of_nonneg h0, add_mul, one_mul]
    refine add_le_add le_rfl ?_
    calc (b' - a) * _ ≤ (b' - a) * (S * (Λ * ‖z - z'‖)) := mul_le_mul_of_nonneg_left hc h0
      _ = _ := by ring
  · intro a b' h0a hab hbT ⟨j, hja, hjb⟩
    have hg := hgap j a b' hja hjb
    have h0 : 0 ≤ b' - a := sub_nonneg.2 hab
    have := H a (b' - a) h0a h0 (hg.trans hhδ) (by linarith)
    rw [add_sub_cancel] at this
    rw [hφ]
    refine this.trans ?_
    rw [pow_succ, ← mul_assoc]
    gcongr

theorem midpoint_order_conditions : ∀ τ : RTree, τ.order ≤ 2 → orderDefect [[], [1 / 2]] ([0, 1] : List ℝ) τ = 0 := by
  have h : ∀ τ : RTree, τ.order ≤ 2 → orderDefect [[], [1 / 2]] ([0, 1] : List ℚ) τ = 0 :=
    forall_trees 1 _ (by decide +kernel)
  intro τ hτ
  have := orderDefect_cast [[], [1 / 2]] [0, 1] τ
  rw [h τ hτ] at this
  simpa using this

/-- **C82.** `midpoint` is of second order on whole integrations of every twice continuously differentiable field that is
Lipschitz in the state. -/
theorem C82_midpoint_converges (f : ℝ → V → V) (hf : ContDiff ℝ 2 (fun p : ℝ × V => f p.1 p.2)) (y : ℝ → V) (t0 T L : ℝ)
    (hL : 0 ≤ L) (hLip : ∀ t x x', ‖f t x - f t x'‖ ≤ L * ‖x - x'‖)
    (hy : ∀ t ∈ Icc t0 T, HasDerivWithinAt y (f t (y t)) (Icc t0 T) t) (args : A) :
    ConvergesWithOrder 2 (midpointSolver (Except PyErr) ℝ V A) args f y t0 T := by
  refine rk_global (n := 1) hL hLip (midpoint_steppedBy f args) [(0, []), (1 / 2, [1 / 2])] [0, 1] ?_ ?_
  · intro x t h
    rw [← midpoint_rk f x t h ()]
    rfl
  · have := rkT_local_error (n := 1) (by exact_mod_cast hf) hy [[], [1 / 2]] (by simp [Explicit]) [0, 1]
      midpoint_order_conditions
    simpa using this

/-- **C82 (partial: autonomous fields).** `rk4` is of fourth order on whole integrations of autonomous fields. Missing:
time-dependent fields, where it is false (`C82_rk4_time_refuted`). -/
theorem C82_rk4_converges_partial (F : V → V) (hF : ContDiff ℝ 4 F) (y : ℝ → V) (t0 T L : ℝ)
    (hL : 0 ≤ L) (hLip : ∀ x x', ‖F x - F x'‖ ≤ L * ‖x - x'‖)
    (hy : ∀ t ∈ Icc t0 T, HasDerivWithinAt y (F (y t)) (Icc t0 T) t) (args : A) :
    ConvergesWithOrder 4 (rk4Solver (Except PyErr) ℝ V A) args (fun _ x => F x) y t0 T := by
  have hrows : ((butcherRows (constructRk4 ℝ)).map fun row => (row.sum, row)).map Prod.snd = butcherRows (constructRk4 ℝ) := by
    simp [Function.comp_def]
  refine rk_global (n := 3) (f := fun _ x => F x) hL (fun _ => hLip) (rk4_steppedBy _ args)
    ((butcherRows (constructRk4 ℝ)).map fun row => (row.sum, row)) (constructRk4 ℝ).bsol ?_ ?_
  · intro x t h
    rw [rkStagesT_autonomous, hrows]
    exact rk4_rk F x t h ()
  · simp only [rkStagesT_autonomous, hrows]
    exact rk_local_error (n := 3) (by exact_mod_cast hF) hy _ (by simp [Explicit, butcherRows, constructRk4]) _
      (fun τ hτ => by
        rw [rk4_rows_cast, rk4_bsol_cast, orderDefect_cast, C05_rk4_order_conditions_partial τ hτ, Rat.cast_zero])

theorem euler_order_conditions : ∀ τ : RTree, τ.order ≤ 1 → orderDefect [[]] ([1] : List ℝ) τ = 0 := by
  have h : ∀ τ : RTree, τ.order ≤ 1 → orderDefect [[]] ([1] : List ℚ) τ = 0 := forall_trees 0 _ (by decide +kernel)
  intro τ hτ
  have := orderDefect_cast [[]] [1] τ
  rw [h τ hτ] at this
  simpa using this

/-- **C82.** `euler` is of first order. -/
theorem C82_euler_converges (f : ℝ → V → V) (hf : ContDiff ℝ 1 (fun p : ℝ × V => f p.1 p.2)) (y : ℝ → V) (t0 T L : ℝ)
    (hL : 0 ≤ L) (hLip : ∀ t x x', ‖f t x - f t x'‖ ≤ L * ‖x - x'‖)
    (hy : ∀ t ∈ Icc t0 T, HasDerivWithinAt y (f t (y t)) (Icc t0 T) t) (args : A) :
    ConvergesWithOrder 1 (eulerSolver (Except PyErr) ℝ V A) args f y t0 T := by
  refine rk_global (n := 0) hL hLip (euler_steppedBy f args) [(0, [])] [1] ?_ ?_
  · intro x t h
    simp [rkStagesT, comb]
  · have := rkT_local_error (n := 0) (by exact_mod_cast hf) hy [[]] (by simp [Explicit]) [1] euler_order_conditions
    simpa using this

/-- C82 applied to `x' = -x` on `[0, 1]`. -/
example : ConvergesWithOrder 4 (rk4Solver (Except PyErr) ℝ ℝ Unit) () (fun _ x => -x) (fun t => Real.exp (-t)) 0 1 := by
  refine C82_rk4_converges_partial (fun x => -x) (by fun_prop) _ 0 1 1 zero_le_one (fun x x' => ?_) (fun t _ => ?_) ()
  · rw [one_mul, neg_sub_neg, norm_sub_rev]
  · have := (hasDerivAt_neg t).exp
    simpa using this.hasDerivWithinAt

/-- The grid `0, 1/N, …, 1`. -/
noncomputable def unitGrid (N : ℕ) : List ℝ := (List.range (N + 1)).map fun k : ℕ => (k : ℝ) / N

theorem unitGrid_get {N k : ℕ} (hk : k ≤ N) : (unitGrid N)[k]? = some ((k : ℝ) / N) := by
  simp [unitGrid, List.getElem?_map, List.getElem?_range (by omega : k < N + 1)]

theorem unitGrid_none {N k : ℕ} (hk : N < k) : (unitGrid N)[k]? = none := by
  simp [unitGrid]; omega

theorem unitGrid_two (N : ℕ) (hN : 0 < N) : ∃ t1 rest, unitGrid N = 0 :: t1 :: rest := by
  obtain ⟨M, rfl⟩ : ∃ M, N = M + 1 := ⟨N - 1, by omega⟩
  refine ⟨((1 : ℕ) : ℝ) / (M + 1 : ℕ), (unitGrid (M + 1)).drop 2, ?_⟩
  conv_lhs => rw [← List.take_append_drop 2 (unitGrid (M + 1))]
  simp [unitGrid, List.range_succ_eq_map]

/-- **C82 (refutation for time-dependent fields).** On `x' = t`, `x(0) = 0`, `rk4` is not of order four, not even of order
two: on the grid `0, 1/N, …, 1` the state at time `k/N` is too small by `k/(4 N²)`. -/
theorem C82_rk4_time_refuted (p : ℕ) (hp : 2 ≤ p) : ¬ ConvergesWithOrder p (rk4Solver (Except PyErr) ℝ ℝ Unit) ()
    (fun t _ => t) (fun t => t ^ 2 / 2) 0 1 := by
  rintro ⟨C, δ, hδ, H⟩
  obtain ⟨N, hN⟩ := exists_nat_gt (max (1 / δ) (4 * |C|))
  have hN1 : 1 / δ < N := (le_max_left _ _).trans_lt hN
  have hN2 : 4 * |C| < N := (le_max_right _ _).trans_lt hN
  have hNpos : (0 : ℝ) < N := (by positivity : (0 : ℝ) ≤ 4 * |C|).trans_lt hN2
  have hN0 : 0 < N := by exact_mod_cast hNpos
  obtain ⟨t1, rest, hg⟩ := unitGrid_two N hN0
  have hget : ∀ {k : ℕ} {t : ℝ}, (unitGrid N)[k]? = some t → k ≤ N ∧ t = k / N := by
    intro k t h
    by_cases hk : k ≤ N
    · rw [unitGrid_get hk] at h
      exact ⟨hk, (Option.some.inj h).symm⟩
    · rw [unitGrid_none (by omega)] at h
      cases h
  obtain ⟨φ, sol, hφ, htraj, -, hb⟩ := H t1 rest (1 / N)
    (by rw [div_le_iff₀ hNpos]; rw [div_lt_iff₀ hδ] at hN1; linarith)
    (by
      rw [← hg, unitGrid, List.pairwise_map]
      refine List.pairwise_lt_range.imp fun hab => ?_
      have : ((_ : ℕ) : ℝ) < ((_ : ℕ) : ℝ) := Nat.cast_lt.2 hab
      gcongr)
    (by
      rw [← hg]
      intro t ht
      obtain ⟨k, hk⟩ := List.mem_iff_getElem?.1 ht
      obtain ⟨h1, rfl⟩ := hget hk
      rw [div_le_one hNpos]
      exact_mod_cast h1)
    (by
      rw [← hg]
      intro k t t' ht ht'
      obtain ⟨-, rfl⟩ := hget ht
      obtain ⟨-, rfl⟩ := hget ht'
      rw [← sub_div]
      simp)
  rw [← hg] at htraj hb
  have hφ' : ∀ x t h : ℝ, φ x t h = x + ((t + h) ^ 2 - t ^ 2) / 2 - h ^ 2 / 4 := by
    intro x t h
    obtain ⟨_, _, e⟩ := hφ x t h
    obtain ⟨_, _, e'⟩ := rk4_steppedBy (fun t _ : ℝ => t) () x t h
    rw [e] at e'
    have : φ x t h = rk4Update (fun t _ : ℝ => t) x t h := by
      injection e' with e'
      injection e' with _ e' _
    rw [this]
    exact C05_rk4_time_defect x t h ()
  have hsol : ∀ k : ℕ, k ≤ N → sol[k]? = some (((k : ℝ) / N) ^ 2 / 2 - k / (4 * (N : ℝ) ^ 2)) := by
    intro k
    induction k with
    | zero => intro _; simpa using htraj.start
    | succ k ih =>
      intro hk
      rw [htraj.next k _ _ _ (unitGrid_get (by omega)) (unitGrid_get hk) (ih (by omega)), hφ']
      congr 1
      push_cast
      field_simp
      ring
  have := hb N _ _ (unitGrid_get le_rfl) (hsol N le_rfl)
  have e : ((N : ℝ) / N) ^ 2 / 2 - N / (4 * (N : ℝ) ^ 2) - ((N : ℝ) / N) ^ 2 / 2 = -(1 / (4 * N)) := by
    field_simp
    ring
  rw [e, norm_neg, Real.norm_of_nonneg (by positivity)] at this
  have h1 : (1 / (N : ℝ)) ^ p ≤ (1 / N) ^ 2 :=
    pow_le_pow_of_le_one (by positivity) (by rw [div_le_one hNpos]; exact_mod_cast hN0) hp
  have h2 : 1 / (4 * (N : ℝ)) ≤ |C| * (1 / N) ^ 2 :=
    this.trans ((mul_le_mul_of_nonneg_right (le_abs_self C) (by positivity)).trans
      (mul_le_mul_of_nonneg_left h1 (abs_nonneg C)))
  have h3 : (N : ℝ) ≤ 4 * |C| := by
    have := mul_le_mul_of_nonneg_left h2 (by positivity : (0 : ℝ) ≤ 4 * N ^ 2)
    have e1 : 4 * (N : ℝ) ^ 2 * (1 / (4 * N)) = N := by field_simp
    have e2 : 4 * (N : ℝ) ^ 2 * (|C| * (1 / N) ^ 2) = 4 * |C| := by field_simp
    linarith
  linarith

end Torchdyn
