import Verif.Props.SdeStrong
import Mathlib.MeasureTheory.Function.L2Space
import Mathlib.Analysis.SpecificLimits.Basic
import Mathlib.Probability.Distributions.Gaussian.IsGaussianProcess.Independence

/-!
C117: as the grid is halved again and again along the same Brownian path, the results of `sdeint` with the Euler–Maruyama solver
(`/repo/torchdyn/numerics/solvers/sde.py:30-35`, `/repo/torchdyn/numerics/sdeint.py:91-116`) converge in mean square, with a rate. A
process with Brownian increments on all dyadic grids is constructed (Lévy's midpoint construction) to show that the hypotheses can be met.
-/

set_option linter.unusedSectionVars false

namespace Torchdyn

open Spec MeasureTheory ProbabilityTheory

variable {Ω : Type} [MeasurableSpace Ω] {ι : Type} [Fintype ι]

/-- The uniform grid of spacing `h / 2^m` from `t0`. -/
noncomputable def dyadicGrid (t0 h : ℝ) (m k : ℕ) : ℝ := t0 + k * (h / 2 ^ m)

section limit

variable {P : Measure Ω} [IsProbabilityMeasure P] {W : Ω → ℝ → ι → ℝ} {f g : ℝ → (ι → ℝ) → ι → ℝ} {x0 : ι → ℝ} {L t0 h : ℝ}

theorem dyadicGrid_strictMono (h0 : 0 < h) (m : ℕ) : StrictMono (dyadicGrid t0 h m) := by
  intro a b hab
  have : (a : ℝ) < b := by exact_mod_cast hab
  unfold dyadicGrid
  have h2 : 0 < h / 2 ^ m := by positivity
  linarith [mul_lt_mul_of_pos_right this h2]

theorem dyadicGrid_refine (m d : ℕ) : dyadicGrid t0 h (m + d) ∘ (fun j => 2 ^ d * j) = dyadicGrid t0 h m := by
  funext j
  simp only [Function.comp, dyadicGrid, pow_add]
  push_cast
  field_simp

/-- The squared distance in `L²`. -/
theorem norm_toLp_sub {X Y : Ω → ℝ} (hX : MemLp X 2 P) (hY : MemLp Y 2 P) :
    ‖hX.toLp X - hY.toLp Y‖ ^ 2 = ∫ ω, (X ω - Y ω) ^ 2 ∂P := by
  rw [← MemLp.toLp_sub hX hY, ← real_inner_self_eq_norm_sq, L2.inner_def]
  refine integral_congr_ae ?_
  filter_upwards [(hX.sub hY).coeFn_toLp] with ω hω
  rw [hω]
  simp [sq]

/-- A sequence of random vectors whose mean-square distances are bounded by a null sequence has a mean-square limit. -/
theorem exists_meanSq_limit {u : ℕ → Ω → ι → ℝ} (hu : ∀ m i, MemLp (fun ω => u m ω i) 2 P) {b : ℕ → ℝ}
    (hb : Filter.Tendsto b Filter.atTop (nhds 0)) (hd : ∀ m d, ∑ i, ∫ ω, (u (m + d) ω i - u m ω i) ^ 2 ∂P ≤ b m) :
    ∃ X : Ω → ι → ℝ, (∀ i, MemLp (fun ω => X ω i) 2 P) ∧ ∀ m, ∑ i, ∫ ω, (u m ω i - X ω i) ^ 2 ∂P ≤ b m := by
  let U : ι → ℕ → Lp ℝ 2 P := fun i m => (hu m i).toLp _
  have hU : ∀ i m d, ‖U i (m + d) - U i m‖ ^ 2 = ∫ ω, (u (m + d) ω i - u m ω i) ^ 2 ∂P := fun i m d => norm_toLp_sub _ _
  have hc : ∀ i, CauchySeq (U i) := by
    intro i
    refine cauchySeq_of_le_tendsto_0' (fun m => Real.sqrt (b m)) (fun m n hmn => ?_) ?_
    · obtain ⟨d, rfl⟩ := Nat.exists_eq_add_of_le hmn
      rw [dist_comm, dist_eq_norm]
      refine Real.le_sqrt_of_sq_le ?_
      rw [hU]
      exact (Finset.single_le_sum (f := fun i => ∫ ω, (u (m + d) ω i - u m ω i) ^ 2 ∂P)
        (fun _ _ => integral_nonneg fun _ => sq_nonneg _) (Finset.mem_univ i)).trans (hd m d)
    · have := (Real.continuous_sqrt.tendsto 0).comp hb
      rwa [Real.sqrt_zero] at this
  choose V hV using fun i => cauchySeq_tendsto_of_complete (hc i)
  refine ⟨fun ω i => V i ω, fun i => Lp.memLp (V i), fun m => ?_⟩
  have e : ∀ i, ∫ ω, (u m ω i - V i ω) ^ 2 ∂P = ‖U i m - V i‖ ^ 2 := by
    intro i
    have := norm_toLp_sub (hu m i) (Lp.memLp (V i))
    rw [Lp.toLp_coeFn] at this
    exact this.symm
  simp only [e]
  have ht : Filter.Tendsto (fun d => ∑ i, ‖U i (m + d) - U i m‖ ^ 2) Filter.atTop (nhds (∑ i, ‖U i m - V i‖ ^ 2)) := by
    refine tendsto_finsetSum _ fun i _ => ?_
    rw [norm_sub_rev (U i m)]
    refine Filter.Tendsto.pow (Filter.Tendsto.norm (Filter.Tendsto.sub_const ?_ _)) 2
    simp only [Nat.add_comm m]
    exact (hV i).comp (Filter.tendsto_add_atTop_nat m)
  refine le_of_tendsto' ht fun d => ?_
  simp only [hU]
  exact hd m d

/-- **C117.** `sdeint(..., solver='euler')` converges in mean square when the grid is refined along the same Brownian path: with
Lipschitz coefficients, run the solver on the grids of spacing `h, h/2, h/4, …` over `n` steps of size `h ≤ 1`. Every run returns, and
there are square-integrable random states `X j`, one per coarse time, such that the mean-square distance of the `m`-th run to `X j` is at
most a constant times the spacing `h / 2^m`. -/
theorem C117_limit (sqrt : ℝ → ℝ) (hW : ∀ m, BrownianSteps P W (dyadicGrid t0 h m)) (h0 : 0 < h) (h1 : h ≤ 1)
    (hf : SdeLipschitz f L) (hg : SdeLipschitz g L) (x0 : ι → ℝ) {noise : String}
    (hn : noise ∈ ["general", "diagonal", "scalar", "additive"]) (n : ℕ) (hn1 : 1 ≤ n) :
    ∃ (sol : ℕ → Ω → List (ι → ℝ)) (X : ℕ → Ω → ι → ℝ),
      (∀ m ω, sdeint (m := Except PyErr) sqrt (.sdeFunc (pureSde f g (some noise) (some "ito"))) x0
        (gridOf (dyadicGrid t0 h m) (2 ^ m * n)) (.inl "euler") (pathBm (W ω)) [] =
          .ok (gridOf (dyadicGrid t0 h m) (2 ^ m * n), sol m ω)) ∧
      (∀ j i, MemLp (fun ω => X j ω i) 2 P) ∧
      ∀ m, ∀ j ≤ n, ∑ i, ∫ ω, ((sol m ω).getD (2 ^ m * j) 0 i - X j ω i) ^ 2 ∂P ≤
        strongConstant L (n * h) (∑ i, x0 i ^ 2) * (h / 2 ^ m) := by
  have hlim : ∀ j, ∃ X : Ω → ι → ℝ, (∀ i, MemLp (fun ω => X ω i) 2 P) ∧ ∀ m,
      ∑ i, ∫ ω, (emState f g W (dyadicGrid t0 h m) x0 ω (2 ^ m * j) i - X ω i) ^ 2 ∂P ≤
        strongConstant L (j * h) (∑ i, x0 i ^ 2) * (h / 2 ^ m) := by
    intro j
    refine exists_meanSq_limit (fun m i => emState_memLp (hW m) hf.coefficient hg.coefficient _ i) ?_ fun m d => ?_
    · have : Filter.Tendsto (fun m : ℕ => strongConstant L (j * h) (∑ i, x0 i ^ 2) * h * (1 / 2 : ℝ) ^ m) Filter.atTop
          (nhds (strongConstant L (j * h) (∑ i, x0 i ^ 2) * h * 0)) :=
        (tendsto_pow_atTop_nhds_zero_of_lt_one (by norm_num) (by norm_num)).const_mul _
      rw [mul_zero] at this
      refine this.congr fun m => ?_
      rw [one_div, inv_pow]
      ring
    · have hc : StrictMono fun j : ℕ => 2 ^ d * j := fun a b hab => Nat.mul_lt_mul_of_pos_left hab (by positivity)
      have hspace : ∀ l, dyadicGrid t0 h m (l + 1) - dyadicGrid t0 h m l = h / 2 ^ m := by
        intro l
        simp only [dyadicGrid]
        push_cast
        ring
      have hH : h / 2 ^ m ≤ 1 := (div_le_self h0.le (one_le_pow₀ (by norm_num))).trans h1
      have hcomp := fun l => congrFun (dyadicGrid_refine (t0 := t0) (h := h) m d) l
      simp only [Function.comp] at hcomp
      have := strong_error (hW (m + d)) (dyadicGrid_strictMono h0 (m + d)) hf hg hc (by simp) (H := h / 2 ^ m)
        (fun l => by rw [hcomp, hcomp, hspace]) hH x0 (2 ^ m * j) (j * h) (by
          rw [hcomp]
          simp only [dyadicGrid]
          push_cast
          refine le_of_eq ?_
          field_simp
          ring)
      rw [dyadicGrid_refine] at this
      have e : 2 ^ (m + d) * j = 2 ^ d * (2 ^ m * j) := by ring
      simp only [e]
      exact this
  choose X hX1 hX2 using hlim
  have hk : ∀ m, 1 ≤ 2 ^ m * n := fun m => Nat.mul_pos (by positivity) hn1
  refine ⟨fun m ω => (List.range (2 ^ m * n + 1)).map (emState f g W (dyadicGrid t0 h m) x0 ω), X,
    fun m ω => sdeint_emState sqrt _ _ W (dyadicGrid_strictMono h0 m) x0 hn _ (hk m) ω, hX1, fun m j hj => ?_⟩
  have hj' : 2 ^ m * j < 2 ^ m * n + 1 := Nat.lt_succ_of_le (Nat.mul_le_mul_left _ hj)
  simp only [List.getD_eq_getElem?_getD, List.getElem?_map, List.getElem?_range hj', Option.map_some, Option.getD_some]
  refine (hX2 j m).trans (mul_le_mul_of_nonneg_right ?_ (by positivity))
  have hL := hf.nonneg
  have hjn : (j : ℝ) * h ≤ n * h := mul_le_mul_of_nonneg_right (by exact_mod_cast hj) h0.le
  have hj0 : 0 ≤ (j : ℝ) * h := by positivity
  have ha : 0 ≤ ∑ i, x0 i ^ 2 := Finset.sum_nonneg fun _ _ => sq_nonneg _
  unfold strongConstant
  gcongr

end limit

/-! ### Brownian motion on dyadic grids -/

section levy

/-- Lévy's construction: the increments over `h / 2^(m+1)` are half the increment over `h / 2^m` plus or minus an independent normal
variable. The randomness is a family of numbers indexed by level, position and component. -/
noncomputable def levyStep (h : ℝ) (ω : ℕ × ℕ × ι → ℝ) : ℕ → ℕ → ι → ℝ
  | 0, k, i => Real.sqrt h * ω (0, k, i)
  | m + 1, k, i => 1 / 2 * levyStep h ω m (k / 2) i + (if k % 2 = 0 then 1 else -1) * (Real.sqrt (h / 2 ^ m) / 2) * ω (m + 1, k / 2, i)

/-- The values on the grid of level `m`. -/
noncomputable def levySum (h : ℝ) (ω : ℕ × ℕ × ι → ℝ) (m k : ℕ) : ι → ℝ := ∑ j ∈ Finset.range k, levyStep h ω m j

variable {h : ℝ}

theorem levySum_double (ω : ℕ × ℕ × ι → ℝ) (m k : ℕ) : levySum h ω (m + 1) (2 * k) = levySum h ω m k := by
  induction k with
  | zero => rfl
  | succ k ih =>
    have e : 2 * (k + 1) = 2 * k + 1 + 1 := by ring
    unfold levySum at *
    rw [e, Finset.sum_range_succ, Finset.sum_range_succ, ih, Finset.sum_range_succ, add_assoc]
    congr 1
    funext i
    have e1 : (2 * k) / 2 = k := by omega
    have e2 : (2 * k + 1) / 2 = k := by omega
    have e3 : (2 * k) % 2 = 0 := by omega
    have e4 : ¬ (2 * k + 1) % 2 = 0 := by omega
    simp only [Pi.add_apply, levyStep, e1, e2, if_pos e3, if_neg e4]
    ring

theorem levySum_refine (ω : ℕ × ℕ × ι → ℝ) (m d k : ℕ) : levySum h ω (m + d) (2 ^ d * k) = levySum h ω m k := by
  induction d with
  | zero => simp
  | succ d ih =>
    have e : 2 ^ (d + 1) * k = 2 * (2 ^ d * k) := by ring
    rw [← ih, ← levySum_double ω (m + d), ← add_assoc, e]

open Classical in
/-- The path, defined at all dyadic times (and zero elsewhere). -/
noncomputable def levyPath (t0 h : ℝ) (ω : ℕ × ℕ × ι → ℝ) (t : ℝ) : ι → ℝ :=
  if hx : ∃ p : ℕ × ℕ, t = dyadicGrid t0 h p.1 p.2 then levySum h ω hx.choose.1 hx.choose.2 else 0

theorem levyPath_grid {t0 : ℝ} (h0 : 0 < h) (ω : ℕ × ℕ × ι → ℝ) (m k : ℕ) :
    levyPath t0 h ω (dyadicGrid t0 h m k) = levySum h ω m k := by
  have hx : ∃ p : ℕ × ℕ, dyadicGrid t0 h m k = dyadicGrid t0 h p.1 p.2 := ⟨(m, k), rfl⟩
  unfold levyPath
  rw [dif_pos hx]
  have hs := hx.choose_spec
  generalize hx.choose = p at hs
  obtain ⟨m', k'⟩ := p
  simp only at hs ⊢
  have e : 2 ^ m' * k = 2 ^ m * k' := by
    unfold dyadicGrid at hs
    field_simp at hs
    have : (k : ℝ) * 2 ^ m' = k' * 2 ^ m := by
      have := h0.ne'
      have h3 : (h * k : ℝ) * 2 ^ m' = h * k' * 2 ^ m := by linarith
      have h4 : h * (k * 2 ^ m' - k' * 2 ^ m : ℝ) = 0 := by linarith
      rcases mul_eq_zero.1 h4 with h5 | h5
      · exact absurd h5 this
      · linarith
    have h6 : k * 2 ^ m' = k' * 2 ^ m := by exact_mod_cast this
    rw [mul_comm, h6, mul_comm]
  rw [← levySum_refine ω m' m k', ← levySum_refine ω m m' k, e, add_comm]

/-- Independent standard normal variables. -/
noncomputable def levyMeasure (ι : Type) : Measure (ℕ × ℕ × ι → ℝ) := Measure.infinitePi fun _ => gaussianReal 0 1

instance : IsProbabilityMeasure (levyMeasure ι) := by unfold levyMeasure; infer_instance

theorem levy_coord (p : ℕ × ℕ × ι) : MeasurePreserving (fun ω : ℕ × ℕ × ι → ℝ => ω p) (levyMeasure ι) (gaussianReal 0 1) :=
  measurePreserving_eval_infinitePi _ p

theorem levy_coord_memLp (p : ℕ × ℕ × ι) : MemLp (fun ω : ℕ × ℕ × ι → ℝ => ω p) 2 (levyMeasure ι) :=
  (memLp_id_gaussianReal 2).comp_measurePreserving (levy_coord p)

theorem levy_coord_mean (p : ℕ × ℕ × ι) : ∫ ω : ℕ × ℕ × ι → ℝ, ω p ∂levyMeasure ι = 0 := by
  have : HasLaw (fun ω : ℕ × ℕ × ι → ℝ => ω p) (gaussianReal 0 1) (levyMeasure ι) := (levy_coord p).hasLaw
  rw [this.integral_eq, integral_id_gaussianReal]

theorem levy_indep : iIndepFun (fun (p : ℕ × ℕ × ι) (ω : ℕ × ℕ × ι → ℝ) => ω p) (levyMeasure ι) :=
  iIndepFun_infinitePi (X := fun _ x => x) fun _ => measurable_id

theorem levy_coord_cov [DecidableEq ι] (p q : ℕ × ℕ × ι) :
    cov[fun ω : ℕ × ℕ × ι → ℝ => ω p, fun ω => ω q; levyMeasure ι] = if p = q then 1 else 0 := by
  split_ifs with hpq
  · subst hpq
    rw [covariance_self (levy_coord p).measurable.aemeasurable, variance_of_integral_eq_zero (levy_coord p).measurable.aemeasurable
      (levy_coord_mean p)]
    exact gaussian_second (v := 1) zero_le_one (by simpa using levy_coord p)
  · exact (levy_indep.indepFun hpq).covariance_eq_zero (levy_coord_memLp p) (levy_coord_memLp q)

theorem levyStep_memLp (m k : ℕ) (i : ι) : MemLp (fun ω => levyStep h ω m k i) 2 (levyMeasure ι) := by
  induction m generalizing k with
  | zero => exact (levy_coord_memLp _).const_mul _
  | succ m ih => exact ((ih _).const_mul _).add ((levy_coord_memLp _).const_mul _)

theorem levyStep_meas (m k : ℕ) (i : ι) : Measurable fun ω => levyStep h ω m k i := by
  induction m generalizing k with
  | zero => exact (measurable_pi_apply _).const_mul _
  | succ m ih => exact ((ih _).const_mul _).add ((measurable_pi_apply _).const_mul _)

theorem levyStep_mean (m k : ℕ) (i : ι) : ∫ ω, levyStep h ω m k i ∂levyMeasure ι = 0 := by
  induction m generalizing k with
  | zero =>
    show ∫ ω : ℕ × ℕ × ι → ℝ, Real.sqrt h * ω (0, k, i) ∂levyMeasure ι = 0
    rw [integral_const_mul, levy_coord_mean, mul_zero]
  | succ m ih =>
    simp only [levyStep]
    rw [integral_add (((levyStep_memLp m _ i).const_mul _).integrable one_le_two)
      (((levy_coord_memLp _).const_mul _).integrable one_le_two), integral_const_mul, integral_const_mul, ih, levy_coord_mean]
    simp

/-- Levels are independent of later noise. -/
theorem levyStep_cov_coord [DecidableEq ι] (m k : ℕ) (i : ι) (p : ℕ × ℕ × ι) (hp : m < p.1) :
    cov[fun ω => levyStep h ω m k i, fun ω => ω p; levyMeasure ι] = 0 := by
  induction m generalizing k with
  | zero =>
    simp only [levyStep]
    rw [covariance_const_mul_left, levy_coord_cov, if_neg, mul_zero]
    rintro rfl
    exact absurd hp (Nat.lt_irrefl 0)
  | succ m ih =>
    simp only [levyStep]
    refine (covariance_add_left ((levyStep_memLp m _ i).const_mul _) ((levy_coord_memLp _).const_mul _) (levy_coord_memLp _)).trans ?_
    have hne : (m + 1, k / 2, i) ≠ p := by
      rintro rfl
      exact absurd hp (Nat.lt_irrefl _)
    rw [covariance_const_mul_left, covariance_const_mul_left, ih _ (by omega), levy_coord_cov, if_neg hne, mul_zero, mul_zero, add_zero]

theorem levyStep_cov [DecidableEq ι] (h0 : 0 < h) (m k l : ℕ) (i j : ι) :
    cov[fun ω => levyStep h ω m k i, fun ω => levyStep h ω m l j; levyMeasure ι] = if k = l ∧ i = j then h / 2 ^ m else 0 := by
  induction m generalizing k l with
  | zero =>
    simp only [levyStep]
    rw [covariance_const_mul_left, covariance_const_mul_right, levy_coord_cov, ← mul_assoc, Real.mul_self_sqrt h0.le]
    by_cases hkl : k = l ∧ i = j
    · obtain ⟨rfl, rfl⟩ := hkl
      simp
    · rw [if_neg hkl, if_neg, mul_zero]
      simpa using hkl
  | succ m ih =>
    simp only [levyStep]
    have m1 := fun k => (levyStep_memLp (h := h) m k i)
    have m2 := fun k => (levyStep_memLp (h := h) m k j)
    refine (covariance_add_left ((m1 _).const_mul _) ((levy_coord_memLp _).const_mul _)
      (((m2 _).const_mul _).add ((levy_coord_memLp _).const_mul _))).trans ?_
    have s1 := covariance_add_right ((m1 (k / 2)).const_mul (1 / 2)) ((m2 (l / 2)).const_mul (1 / 2))
      ((levy_coord_memLp (m + 1, l / 2, j)).const_mul ((if l % 2 = 0 then 1 else -1) * (Real.sqrt (h / 2 ^ m) / 2)))
    have s2 := covariance_add_right ((levy_coord_memLp (m + 1, k / 2, i)).const_mul ((if k % 2 = 0 then 1 else -1) * (Real.sqrt (h / 2 ^ m) / 2)))
      ((m2 (l / 2)).const_mul (1 / 2))
      ((levy_coord_memLp (m + 1, l / 2, j)).const_mul ((if l % 2 = 0 then 1 else -1) * (Real.sqrt (h / 2 ^ m) / 2)))
    refine (congrArg₂ (· + ·) s1 s2).trans ?_
    rw [covariance_const_mul_left, covariance_const_mul_right, covariance_const_mul_left, covariance_const_mul_right,
      covariance_const_mul_left, covariance_const_mul_right, covariance_const_mul_left, covariance_const_mul_right,
      ih, levyStep_cov_coord m _ _ _ (by simp), levy_coord_cov, covariance_comm, levyStep_cov_coord m _ _ _ (by simp)]
    have hs : Real.sqrt (h / 2 ^ m) * Real.sqrt (h / 2 ^ m) = h / 2 ^ m := Real.mul_self_sqrt (by positivity)
    have hp : h / 2 ^ (m + 1) = (h / 2 ^ m) / 2 := by rw [pow_succ]; field_simp
    rw [hp]
    generalize Real.sqrt (h / 2 ^ m) = s at *
    generalize h / 2 ^ m = v at *
    simp only [Prod.mk.injEq, true_and]
    by_cases hij : i = j
    · by_cases hk : k / 2 = l / 2
      · rcases Nat.mod_two_eq_zero_or_one k with a | a <;> rcases Nat.mod_two_eq_zero_or_one l with b | b
        · have : k = l := by omega
          subst this
          simp only [hij, a, and_self, if_true]
          linear_combination (1 / 4) * hs
        · have : k ≠ l := by omega
          simp only [hij, hk, a, b, this, and_self, false_and, if_true, if_false, one_ne_zero]
          linear_combination (-1 / 4) * hs
        · have : k ≠ l := by omega
          simp only [hij, hk, a, b, this, and_self, false_and, if_true, if_false, one_ne_zero]
          linear_combination (-1 / 4) * hs
        · have : k = l := by omega
          subst this
          simp only [hij, a, and_self, if_true, if_false, one_ne_zero]
          linear_combination (1 / 4) * hs
      · have : k ≠ l := by rintro rfl; exact hk rfl
        simp [hk, this]
    · simp [hij]

theorem levyStep_gaussian (m : ℕ) : IsGaussianProcess (fun (p : ℕ × ι) ω => levyStep h ω m p.1 p.2) (levyMeasure ι) := by
  have hcoord : IsGaussianProcess (fun (p : ℕ × ℕ × ι) (ω : ℕ × ℕ × ι → ℝ) => ω p) (levyMeasure ι) := by
    refine ⟨fun I => ?_⟩
    have hI : iIndepFun (fun (p : I) (ω : ℕ × ℕ × ι → ℝ) => ω p.1) (levyMeasure ι) := levy_indep.precomp Subtype.val_injective
    refine hI.hasGaussianLaw fun p => ⟨?_⟩
    show IsGaussian (Measure.map (fun ω : ℕ × ℕ × ι → ℝ => ω p.1) (levyMeasure ι))
    rw [(levy_coord p.1).map_eq]
    infer_instance
  have hfin : ∀ (m k : ℕ) (i : ι), ∃ a : (ℕ × ℕ × ι) →₀ ℝ, ∀ ω, levyStep h ω m k i = a.sum fun p c => c * ω p := by
    intro m
    induction m with
    | zero => exact fun k i => ⟨Finsupp.single (0, k, i) (Real.sqrt h), fun ω => by simp [levyStep]⟩
    | succ m ih =>
      intro k i
      obtain ⟨a, ha⟩ := ih (k / 2) i
      refine ⟨(1 / 2 : ℝ) • a + Finsupp.single (m + 1, k / 2, i) ((if k % 2 = 0 then 1 else -1) * (Real.sqrt (h / 2 ^ m) / 2)), fun ω => ?_⟩
      rw [Finsupp.sum_add_index' (by simp) (by intros; ring), Finsupp.sum_smul_index' (by simp), Finsupp.sum_single_index (by simp),
        levyStep, ha, Finsupp.sum, Finsupp.sum, Finset.mul_sum]
      simp only [smul_eq_mul, mul_assoc]
  refine hcoord.of_isGaussianProcess fun p => ?_
  obtain ⟨a, ha⟩ := hfin m p.1 p.2
  refine ⟨a.support, ∑ q : a.support, a q.1 • ContinuousLinearMap.proj q, fun ω => ?_⟩
  rw [ha, Finsupp.sum, ← Finset.sum_coe_sort]
  simp

theorem levy_brownianSteps {t0 : ℝ} (h0 : 0 < h) (m : ℕ) : BrownianSteps (levyMeasure ι) (levyPath t0 h) (dyadicGrid t0 h m) := by
  classical
  have e : ∀ (ω : ℕ × ℕ × ι → ℝ) k, levyPath t0 h ω (dyadicGrid t0 h m (k + 1)) - levyPath t0 h ω (dyadicGrid t0 h m k) = levyStep h ω m k := by
    intro ω k
    rw [levyPath_grid h0, levyPath_grid h0, levySum, Finset.sum_range_succ, ← levySum, add_sub_cancel_left]
  have e' : ∀ (ω : ℕ × ℕ × ι → ℝ) k i, levyPath t0 h ω (dyadicGrid t0 h m (k + 1)) i - levyPath t0 h ω (dyadicGrid t0 h m k) i = levyStep h ω m k i :=
    fun ω k i => congrFun (e ω k) i
  refine ⟨fun k => ?_, ?_, fun k i => ?_, fun k i => ?_, fun k i => ?_⟩
  · simp only [e]
    exact measurable_pi_lambda _ fun i => levyStep_meas m k i
  · simp only [e]
    refine IsGaussianProcess.iIndepFun_of_covariance_eq_zero (S := fun _ : ℕ => ι) (X := fun k i ω => levyStep h ω m k i)
      ((levyStep_gaussian m).comp_right fun p : (_ : ℕ) × ι => (p.1, p.2)) (fun k i => (levyStep_meas m k i).aemeasurable) ?_
    intro k l hkl i j
    rw [levyStep_cov h0, if_neg fun hh => hkl hh.1]
  · simp only [e']
    exact levyStep_memLp m k i
  · simp only [e']
    exact levyStep_mean m k i
  · simp only [e']
    have := levyStep_cov h0 m k k i i
    rw [covariance_self (levyStep_meas m k i).aemeasurable, variance_of_integral_eq_zero (levyStep_meas m k i).aemeasurable
      (levyStep_mean m k i), if_pos ⟨rfl, rfl⟩] at this
    rw [this]
    simp only [dyadicGrid]
    push_cast
    ring

end levy

/-- The hypotheses of `C117_limit` are met: geometric Brownian motion along Lévy's path, in three dimensions, from time `1`. -/
example (a b : Fin 3 → ℝ) : ∃ (P : Measure (ℕ × ℕ × Fin 3 → ℝ)) (W : (ℕ × ℕ × Fin 3 → ℝ) → ℝ → Fin 3 → ℝ),
    IsProbabilityMeasure P ∧ (∀ m, BrownianSteps P W (dyadicGrid 1 (1 / 2) m)) ∧
    SdeLipschitz (fun (_ : ℝ) (x : Fin 3 → ℝ) => a * x) (∑ j, a j ^ 2 + ∑ j, b j ^ 2) ∧
    SdeLipschitz (fun (_ : ℝ) (x : Fin 3 → ℝ) => b * x) (∑ j, a j ^ 2 + ∑ j, b j ^ 2) :=
  ⟨levyMeasure (Fin 3), levyPath 1 (1 / 2), inferInstance, levy_brownianSteps (by norm_num),
    (linear_lipschitz a).mono (le_add_of_nonneg_right (Finset.sum_nonneg fun _ _ => sq_nonneg _)),
    (linear_lipschitz b).mono (le_add_of_nonneg_left (Finset.sum_nonneg fun _ _ => sq_nonneg _))⟩

end Torchdyn
