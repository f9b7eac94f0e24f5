import Mathlib.Analysis.InnerProductSpace.PiL2
import Verif.Props.LongTime
import Verif.Props.AdaptiveUniform
import Verif.Props.StochasticEvents

/-!
Property C155 for `dopri5`: on contracting fields the adaptive integration stays accurate for all times. The fields need not be
Lipschitz, and one constant serves every horizon and every tolerance.
-/

set_option linter.unusedSectionVars false

namespace Torchdyn

open Spec Set

section rest

variable {V : Type} [NormedAddCommGroup V] [NormedSpace ℝ V]

/-- A cutoff of a field with two continuous derivatives, with the bound on its second differences. -/
theorem exists_cutoff_second [FiniteDimensional ℝ V] {F : V → V} (hF : ContDiff ℝ 2 F) {R : ℝ} (hR : 0 < R) :
    ∃ (G : V → V) (L M K : ℝ), 0 ≤ L ∧ 0 ≤ K ∧ (∀ x x', ‖G x - G x'‖ ≤ L * ‖x - x'‖) ∧ (∀ x, ‖G x‖ ≤ M) ∧
      (∀ x y u v, ‖(G (x + u) - G x) - (G (y + v) - G y)‖ ≤ K * ‖u‖ * ‖x - y‖ + L * ‖u - v‖) ∧ ∀ x, ‖x‖ ≤ R → F x = G x := by
  let χ : ContDiffBump (0 : V) := ⟨R, R + 1, hR, by linarith⟩
  have hc : HasCompactSupport (fun x => χ x • F x) := χ.hasCompactSupport.smul_right
  have hd : ContDiff ℝ 2 (fun x => χ x • F x) := χ.contDiff.smul hF
  obtain ⟨L, hL⟩ := ContDiff.lipschitzWith_of_hasCompactSupport hc hd (by norm_num)
  obtain ⟨M, hM⟩ := hc.exists_bound_of_continuous hd.continuous
  obtain ⟨K, hK⟩ := ContDiff.lipschitzWith_of_hasCompactSupport (hc.fderiv (𝕜 := ℝ)) (hd.fderiv_right (m := 1) (by norm_num))
    one_ne_zero
  have hagree : ∀ x, ‖x‖ ≤ R → F x = χ x • F x := by
    intro x hx
    have : χ x = 1 := χ.one_of_mem_closedBall (by simpa using hx)
    simp [this]
  generalize hG : (fun x => χ x • F x) = G at *
  have hL' : ∀ x x', ‖G x - G x'‖ ≤ L * ‖x - x'‖ := fun x x' => by
    have := hL.dist_le_mul x x'
    rwa [dist_eq_norm, dist_eq_norm] at this
  refine ⟨G, L, M, K, L.coe_nonneg, K.coe_nonneg, hL', fun x => by rw [← hG]; exact hM x, fun x y u v => ?_, fun x hx => (hagree x hx).trans (congrFun hG x)⟩
  have hdiff : Differentiable ℝ G := hd.differentiable (by norm_num)
  have h1 : ‖(G (x + u) - G x) - (G (y + u) - G y)‖ ≤ K * ‖u‖ * ‖x - y‖ := by
    refine Convex.norm_image_sub_le_of_norm_hasFDerivWithin_le (f := fun z => G (z + u) - G z)
      (f' := fun z => fderiv ℝ G (z + u) - fderiv ℝ G z) (s := univ) (fun z _ => ?_) (fun z _ => ?_) convex_univ (mem_univ y)
      (mem_univ x)
    · have a1 : HasFDerivAt (fun z => G (z + u)) (fderiv ℝ G (z + u)) z :=
        (hasFDerivAt_comp_add_right u).2 (hdiff (z + u)).hasFDerivAt
      exact (a1.sub (hdiff z).hasFDerivAt).hasFDerivWithinAt
    · have := hK.dist_le_mul (z + u) z
      rwa [dist_eq_norm, dist_eq_norm, add_sub_cancel_left] at this
  have h2 := hL' (y + u) (y + v)
  rw [add_sub_add_left_eq_sub] at h2
  have e : (G (x + u) - G x) - (G (y + v) - G y) = ((G (x + u) - G x) - (G (y + u) - G y)) + (G (y + u) - G (y + v)) := by abel
  rw [e]
  exact (norm_add_le _ _).trans (add_le_add h1 h2)

/-- The stages at two states differ from each other like the field, up to `h`. -/
theorem stages_rest {G : V → V} {L M K W : ℝ} (hL0 : 0 ≤ L) (hK0 : 0 ≤ K) (hM0 : 0 ≤ M)
    (hL : ∀ x x', ‖G x - G x'‖ ≤ L * ‖x - x'‖) (hM : ∀ x, ‖G x‖ ≤ M)
    (hK : ∀ x y u v, ‖(G (x + u) - G x) - (G (y + v) - G y)‖ ≤ K * ‖u‖ * ‖x - y‖ + L * ‖u - v‖) (x y : V) (t : ℝ) {h : ℝ}
    (h0 : 0 ≤ h) (hh : h * (2 * W * L) ≤ 1) :
    ∀ (rows : List (ℝ × List ℝ)), (∀ r ∈ rows, |r.1| ≤ W ∧ (r.2.map abs).sum ≤ W) → ∀ (ks ks' : List V),
      (∀ k ∈ ks, ‖k‖ ≤ M) → List.Forall₂ (fun k k' => ‖k - k'‖ ≤ 2 * L * ‖x - y‖) ks ks' →
      List.Forall₂ (fun k k' => ‖(k - G x) - (k' - G y)‖ ≤ (K * (W * M) + 2 * L ^ 2 * W) * h * ‖x - y‖) ks ks' →
      List.Forall₂ (fun k k' => ‖(k - G x) - (k' - G y)‖ ≤ (K * (W * M) + 2 * L ^ 2 * W) * h * ‖x - y‖)
        (rkStagesT (fun _ => G) x t h rows ks) (rkStagesT (fun _ => G) y t h rows ks') := by
  intro rows
  induction rows with
  | nil => intro _ ks ks' _ _ h3; exact h3
  | cons r rows ih =>
    intro hrow ks ks' hks h2 h3
    have hr := (hrow r (by simp)).2
    have hu : ‖h • comb r.2 ks‖ ≤ h * (W * M) := by
      rw [norm_smul, Real.norm_of_nonneg h0]
      refine mul_le_mul_of_nonneg_left ((comb_norm_le hM0 r.2 ks hks).trans ?_) h0
      exact mul_le_mul_of_nonneg_right hr hM0
    have hd := norm_nonneg (x - y)
    have huv : ‖h • comb r.2 ks - h • comb r.2 ks'‖ ≤ h * (W * (2 * L * ‖x - y‖)) := by
      rw [← smul_sub, norm_smul, Real.norm_of_nonneg h0]
      refine mul_le_mul_of_nonneg_left ((comb_sub_le r.2 (by positivity) h2).trans ?_) h0
      exact mul_le_mul_of_nonneg_right hr (by positivity)
    refine ih (fun r' hr' => hrow r' (List.mem_cons_of_mem _ hr')) _ _ ?_ ?_ ?_
    · intro k hk
      rcases List.mem_append.1 hk with hk | hk
      · exact hks k hk
      · rw [List.mem_singleton.1 hk]; exact hM _
    · refine List.rel_append h2 (.cons ?_ .nil)
      refine (hL _ _).trans ?_
      have e : x + h • comb r.2 ks - (y + h • comb r.2 ks') = (x - y) + (h • comb r.2 ks - h • comb r.2 ks') := by abel
      rw [e]
      have a1 := norm_add_le (x - y) (h • comb r.2 ks - h • comb r.2 ks')
      have a2 := mul_le_mul_of_nonneg_right hh hd
      have a3 : ‖(x - y) + (h • comb r.2 ks - h • comb r.2 ks')‖ ≤ 2 * ‖x - y‖ := by linarith
      calc _ ≤ _ := mul_le_mul_of_nonneg_left a3 hL0
        _ = _ := by ring
    · refine List.rel_append h3 (.cons ?_ .nil)
      refine (hK _ _ _ _).trans ?_
      have a1 := mul_le_mul_of_nonneg_left hu hK0
      have a2 := mul_le_mul_of_nonneg_right a1 hd
      have a3 := mul_le_mul_of_nonneg_left huv hL0
      calc _ ≤ _ := add_le_add a2 a3
        _ = _ := by ring

theorem comb_rest {g g' : V} {ε : ℝ} : ∀ (b : List ℝ) (ks ks' : List V), b.length ≤ ks.length →
    List.Forall₂ (fun k k' => ‖(k - g) - (k' - g')‖ ≤ ε) ks ks' →
    ‖comb b ks - comb b ks' - b.sum • (g - g')‖ ≤ (b.map abs).sum * ε := by
  intro b
  induction b with
  | nil => intro ks ks' _ _; simp [comb]
  | cons c b ih =>
    intro ks ks' hlen hks
    cases hks with
    | nil => simp at hlen
    | @cons k k' ks ks' hk hks =>
      have h1 := ih ks ks' (by simpa using hlen) hks
      have e : comb (c :: b) (k :: ks) - comb (c :: b) (k' :: ks') - (c :: b).sum • (g - g') =
          c • ((k - g) - (k' - g')) + (comb b ks - comb b ks' - b.sum • (g - g')) := by
        simp only [comb, List.sum_cons, smul_sub, add_smul]
        abel
      rw [e, List.map_cons, List.sum_cons, add_mul]
      refine (norm_add_le _ _).trans (add_le_add ?_ h1)
      rw [norm_smul, Real.norm_eq_abs]
      exact mul_le_mul_of_nonneg_left hk (abs_nonneg c)

end rest

variable {ι A : Type} [Fintype ι]

/-- The Euclidean length of a state. -/
noncomputable def eucl (v : ι → ℝ) : ℝ := ‖(WithLp.toLp 2 v : EuclideanSpace ℝ ι)‖

theorem norm_le_eucl (v : ι → ℝ) : ‖v‖ ≤ eucl v :=
  (pi_norm_le_iff_of_nonneg (norm_nonneg _)).2 fun i => PiLp.norm_apply_le (WithLp.toLp 2 v : EuclideanSpace ℝ ι) i

theorem exists_eucl_le : ∃ c : ℝ, 0 < c ∧ ∀ v : ι → ℝ, eucl v ≤ c * ‖v‖ := by
  refine ⟨‖((EuclideanSpace.equiv ι ℝ).symm : (ι → ℝ) →L[ℝ] EuclideanSpace ℝ ι)‖ + 1, by positivity, fun v => ?_⟩
  refine (((EuclideanSpace.equiv ι ℝ).symm : (ι → ℝ) →L[ℝ] EuclideanSpace ℝ ι).le_opNorm v).trans ?_
  exact mul_le_mul_of_nonneg_right (by linarith) (norm_nonneg v)

theorem eucl_add_le (u v : ι → ℝ) : eucl (u + v) ≤ eucl u + eucl v := norm_add_le _ _

theorem eucl_sq_step (u v : ι → ℝ) (s : ℝ) :
    eucl (u + s • v) ^ 2 = eucl u ^ 2 + 2 * (s * ∑ i, u i * v i) + (s * eucl v) ^ 2 := by
  have h1 : (WithLp.toLp 2 (u + s • v) : EuclideanSpace ℝ ι) = WithLp.toLp 2 u + s • WithLp.toLp 2 v := rfl
  have h2 : inner ℝ (WithLp.toLp 2 u : EuclideanSpace ℝ ι) (WithLp.toLp 2 v) = ∑ i, u i * v i := by
    rw [PiLp.inner_apply]
    exact Finset.sum_congr rfl fun i _ => by simp [mul_comm]
  rw [eucl, h1, norm_add_sq_real, inner_smul_right, h2, norm_smul, mul_pow, mul_pow, Real.norm_eq_abs, sq_abs]
  rfl

theorem eucl_sq (u : ι → ℝ) : eucl u ^ 2 = ∑ i, u i ^ 2 := by
  rw [eucl, EuclideanSpace.norm_sq_eq]
  simp

/-- The field brings states together at rate `μ` in the Euclidean norm. -/
def ContractingEuclid (μ : ℝ) (F : (ι → ℝ) → ι → ℝ) : Prop :=
  ∀ x y, ∑ i, (x i - y i) * (F x i - F y i) ≤ -μ * ∑ i, (x i - y i) ^ 2

/-- Small steps of a consistent explicit Runge-Kutta method contract on bounded regions. -/
theorem rk_contract_local {F : (ι → ℝ) → ι → ℝ} (hF : ContDiff ℝ 2 F) {μ : ℝ} (hμ : 0 < μ) (hc : ContractingEuclid μ F)
    (rows : List (ℝ × List ℝ)) (b : List ℝ) (hb : b.sum = 1) (hlen : b.length ≤ rows.length) (R : ℝ) :
    ∃ δ, 0 < δ ∧ ∀ (x y : ι → ℝ) (t s : ℝ), ‖x‖ ≤ R → ‖y‖ ≤ R → 0 ≤ s → s ≤ δ → 0 ≤ 1 - μ * s / 2 ∧
      eucl ((x + s • comb b (rkStagesT (fun _ => F) x t s rows [])) - (y + s • comb b (rkStagesT (fun _ => F) y t s rows []))) ≤
        (1 - μ * s / 2) * eucl (x - y) := by
  obtain ⟨G, L, M, K, hL0, hK0, hL, hM, hK, hFG⟩ := exists_cutoff_second hF (R := |R| + 1) (by positivity)
  obtain ⟨W, hW0, hW⟩ := exists_row_bound rows
  obtain ⟨c, hc0, hcv⟩ := exists_eucl_le (ι := ι)
  have hM0 : 0 ≤ M := (norm_nonneg _).trans (hM 0)
  have hS : 0 ≤ (b.map abs).sum := List.sum_nonneg (by simp +contextual)
  set S := (b.map abs).sum with hSdef
  set K' := K * (W * M) + 2 * L ^ 2 * W with hK'
  have hK'0 : 0 ≤ K' := by positivity
  -- the bounds on the step
  set Q := W * M + 2 * W * L + 2 * (c ^ 2 * L ^ 2) / μ + 4 * (c * (S * K')) / μ + μ + 1 with hQ
  have hQ0 : 0 < Q := by positivity
  refine ⟨1 / Q, by positivity, fun x y t s hx hy hs hsδ => ?_⟩
  rw [le_div_iff₀ hQ0] at hsδ
  have q1 : 0 ≤ s * (W * M) := by positivity
  have q2 : 0 ≤ s * (2 * W * L) := by positivity
  have q3 : 0 ≤ s * (2 * (c ^ 2 * L ^ 2) / μ) := by positivity
  have q4 : 0 ≤ s * (4 * (c * (S * K')) / μ) := by positivity
  have q5 : 0 ≤ s * μ := by positivity
  have hsum : s * (W * M) + s * (2 * W * L) + s * (2 * (c ^ 2 * L ^ 2) / μ) + s * (4 * (c * (S * K')) / μ) + s * μ + s ≤ 1 := by
    rw [hQ] at hsδ
    linarith
  have s1 : s * (W * M) ≤ 1 := by linarith
  have s2 : s * (2 * W * L) ≤ 1 := by linarith
  have s3 : 2 * (s * (c ^ 2 * L ^ 2)) ≤ μ := by
    have : s * (2 * (c ^ 2 * L ^ 2) / μ) ≤ 1 := by linarith
    rw [mul_div_assoc', div_le_one hμ] at this
    linarith
  have s4 : 4 * (s * (c * (S * K'))) ≤ μ := by
    have : s * (4 * (c * (S * K')) / μ) ≤ 1 := by linarith
    rw [mul_div_assoc', div_le_one hμ] at this
    linarith
  have s5 : s * μ ≤ 1 := by linarith
  refine ⟨by linarith, ?_⟩
  have hxR : ‖x‖ ≤ |R| := hx.trans (le_abs_self R)
  have hyR : ‖y‖ ≤ |R| := hy.trans (le_abs_self R)
  have cong : ∀ z : ι → ℝ, ‖z‖ ≤ |R| → rkStagesT (fun _ => F) z t s rows [] = rkStagesT (fun _ => G) z t s rows [] := by
    intro z hz
    exact rkStagesT_congr (g := fun _ x => G x) (M := M) (R := |R| + 1) (a := t - s * W) (b := t + s * W) (fun _ x => hM x)
      (fun _ x _ _ h => hFG x h) hs (by linarith) le_rfl le_rfl rows hW [] (by simp)
  rw [cong x hxR, cong y hyR]
  have hd := norm_nonneg (x - y)
  have hrest := comb_rest (g := G x) (g' := G y) (ε := K' * s * ‖x - y‖) b
    (rkStagesT (fun _ => G) x t s rows []) (rkStagesT (fun _ => G) y t s rows []) (by rw [rkStagesT_length]; simpa using hlen)
    (stages_rest hL0 hK0 hM0 hL hM hK x y t hs s2 rows hW [] [] (by simp) .nil .nil)
  rw [hb, one_smul] at hrest
  generalize comb b (rkStagesT (fun _ => G) x t s rows []) = p at *
  generalize comb b (rkStagesT (fun _ => G) y t s rows []) = q at *
  have e : x + s • p - (y + s • q) = ((x - y) + s • (G x - G y)) + s • (p - q - (G x - G y)) := by
    simp only [smul_sub]
    abel
  rw [e]
  have hN : ‖x - y‖ ≤ eucl (x - y) := norm_le_eucl _
  have hN0 : 0 ≤ eucl (x - y) := norm_nonneg _
  have hfield : eucl ((x - y) + s • (G x - G y)) ≤ (1 - 3 * (μ * s) / 4) * eucl (x - y) := by
    refine le_of_sq_le_sq ?_ (mul_nonneg (by linarith) hN0)
    rw [eucl_sq_step]
    have hin : ∑ i, (x - y) i * (G x - G y) i ≤ -μ * eucl (x - y) ^ 2 := by
      rw [eucl_sq, ← hFG x (by linarith), ← hFG y (by linarith)]
      exact hc x y
    have hlip : eucl (G x - G y) ≤ c * (L * eucl (x - y)) :=
      (hcv _).trans (mul_le_mul_of_nonneg_left ((hL x y).trans (mul_le_mul_of_nonneg_left hN hL0)) hc0.le)
    have hlip2 : (s * eucl (G x - G y)) ^ 2 ≤ (s * (c * (L * eucl (x - y)))) ^ 2 :=
      pow_le_pow_left₀ (mul_nonneg hs (norm_nonneg _)) (mul_le_mul_of_nonneg_left hlip hs) 2
    have a1 := mul_le_mul_of_nonneg_left hin hs
    have a2 := mul_le_mul_of_nonneg_right s3 (show 0 ≤ s * eucl (x - y) ^ 2 by positivity)
    have a3 : 0 ≤ (μ * s * eucl (x - y)) ^ 2 := sq_nonneg _
    nlinarith
  have hr2 : eucl (s • (p - q - (G x - G y))) ≤ μ * s / 4 * eucl (x - y) := by
    refine (hcv _).trans ?_
    rw [norm_smul, Real.norm_of_nonneg hs]
    have a1 : c * (s * ‖p - q - (G x - G y)‖) ≤ c * (s * (S * (K' * s * ‖x - y‖))) :=
      mul_le_mul_of_nonneg_left (mul_le_mul_of_nonneg_left hrest hs) hc0.le
    have a2 := mul_le_mul_of_nonneg_right s4 (show 0 ≤ s * ‖x - y‖ by positivity)
    have a3 := mul_le_mul_of_nonneg_left hN (show 0 ≤ μ * s / 4 by positivity)
    linarith
  refine (eucl_add_le _ _).trans ?_
  linarith

/-- The step of `dopri5` as a function of the state, the time and the step length. -/
noncomputable def dopri5Map (F : (ι → ℝ) → ι → ℝ) (x : ι → ℝ) (t s : ℝ) : ι → ℝ :=
  x + s • comb (constructDopri5 ℝ).bsol (rkStagesT (fun _ => F) x t s
    ((0 :: (constructDopri5 ℝ).c).zip (butcherRows (constructDopri5 ℝ))) [])

theorem dopri5Map_autonomous (F : (ι → ℝ) → ι → ℝ) (x : ι → ℝ) (t s : ℝ) : dopri5Map F x t s = dopri5Map F x 0 s := by
  rw [dopri5Map, dopri5Map, rkStagesT_autonomous, rkStagesT_autonomous]

theorem dopri5_bsol_sum : (constructDopri5 ℝ).bsol.sum = 1 ∧
    (constructDopri5 ℝ).bsol.length ≤ ((0 :: (constructDopri5 ℝ).c).zip (butcherRows (constructDopri5 ℝ))).length := by
  constructor
  · norm_num [constructDopri5, dopri5Bsol]
  · simp [constructDopri5, butcherRows, dopri5Bsol]

/-- **C155.** Accuracy for all times with `dopri5`: for an autonomous field with five continuous derivatives that contracts at rate
`μ` (no Lipschitz or growth condition) and every bound `R` there are `C` and `δ > 0` such that for every horizon, every solution
bounded by `R`, every initial state within `δ` of it, every grid with gaps at most `h ≤ δ` and all tolerances, `odeint` returns,
and the states stay within `C h^5` of the solution, up to the initial distance, which decays like `exp (-μ (t - a) / 2)`. -/
theorem C155_dopri5 {F : (ι → ℝ) → ι → ℝ} (hF : ContDiff ℝ 5 F) {μ : ℝ} (hμ : 0 < μ) (hc : ContractingEuclid μ F) (args : A)
    (R : ℝ) : ∃ C δ, 0 ≤ C ∧ 0 < δ ∧ ∀ (y : ℝ → ι → ℝ) (a b : ℝ),
    (∀ t ∈ Icc a b, HasDerivWithinAt y (F (y t)) (Icc a b) t) → (∀ t ∈ Icc a b, ‖y t‖ ≤ R) →
    ∀ (x0 : ι → ℝ) (t1 : ℝ) (rest : List ℝ) (h atol rtol : ℝ) (saveAt : List ℝ) (sel : Finset ι), ‖x0 - y a‖ ≤ δ → h ≤ δ →
    Increasing (a :: t1 :: rest) → (∀ t ∈ a :: t1 :: rest, t ≤ b) → GapsAtMost h (a :: t1 :: rest) → 0 < atol → 0 ≤ rtol →
    ∃ fuel0 xs, (∀ fuel, fuel0 ≤ fuel → odeint fuel (pureField fun _ x => F x) x0 (a :: t1 :: rest)
        (dopri5Solver (Except PyErr) ℝ (ι → ℝ) A) atol rtol false false saveAt args sel = .ok (some (a :: t1 :: rest, xs))) ∧
      xs.length = (a :: t1 :: rest).length ∧ xs[0]? = some x0 ∧
      ∀ (k : ℕ) (t : ℝ) (x : ι → ℝ), (a :: t1 :: rest)[k]? = some t → xs[k]? = some x →
        ‖x - y t‖ ≤ C * (Real.exp (-(μ * (t - a) / 2)) * ‖x0 - y a‖ + h ^ 5) := by
  have hf : ContDiff ℝ 5 (fun p : ℝ × (ι → ℝ) => F p.2) := hF.comp contDiff_snd
  obtain ⟨C, δ, hC, hδ, hloc⟩ := local_error_shift (F := F) (dopri5Map F) (dopri5Map_autonomous F)
    (dopri5_one_step (f := fun _ x => F x) hf 0 1 R)
  obtain ⟨E, δe, hE, hδe, herr⟩ := rk_stages_ball (f := fun _ x => F x) (hf.of_le (by norm_num)) 0 0 (R + 1)
    ((0 :: (constructDopri5 ℝ).c).zip (butcherRows (constructDopri5 ℝ))) (constructDopri5 ℝ).berr
  obtain ⟨δc, hδc, hcon⟩ := rk_contract_local (hF.of_le (by norm_num)) hμ hc
    ((0 :: (constructDopri5 ℝ).c).zip (butcherRows (constructDopri5 ℝ))) (constructDopri5 ℝ).bsol dopri5_bsol_sum.1
    dopri5_bsol_sum.2 (R + 1)
  obtain ⟨c, hc0, hcv⟩ := exists_eucl_le (ι := ι)
  have hQ : 0 < 2 * c + 4 * (c * C) / μ := by positivity
  refine ⟨c + 2 * (c * C) / μ, min (min δ δc) (min 1 (1 / (2 * c + 4 * (c * C) / μ))), by positivity,
    lt_min (lt_min hδ hδc) (lt_min one_pos (by positivity)), ?_⟩
  intro y a b hy hyR x0 t1 rest h atol rtol saveAt sel hx0 hh hinc hb hgap hat hrt
  have hs := dopri5_fsalSolver (ι := ι) args
  have h01 : a < t1 := (List.pairwise_cons.1 hinc).1 t1 (by simp)
  have h0 : 0 ≤ h := by linarith [hgap 0 a t1 rfl rfl]
  have d1 : h ≤ δ := hh.trans ((min_le_left _ _).trans (min_le_left _ _))
  have d1c : h ≤ δc := hh.trans ((min_le_left _ _).trans (min_le_right _ _))
  have d2 : h ≤ 1 := hh.trans ((min_le_right _ _).trans (min_le_left _ _))
  have d3 : h ≤ 1 / (2 * c + 4 * (c * C) / μ) := hh.trans ((min_le_right _ _).trans (min_le_right _ _))
  have d4 : ‖x0 - y a‖ ≤ 1 / (2 * c + 4 * (c * C) / μ) := hx0.trans ((min_le_right _ _).trans (min_le_right _ _))
  set η := c * (C * h ^ 5) with hη
  have hη0 : 0 ≤ η := by positivity
  set e0 := eucl (x0 - y a) with he0
  have he0n : 0 ≤ e0 := norm_nonneg _
  have he0c : e0 ≤ c * ‖x0 - y a‖ := hcv _
  -- the bound of the error at time `t`
  let Inv : ℝ → (ι → ℝ) → Prop := fun t x => eucl (x - y t) ≤ Real.exp (-(μ * (t - a) / 2)) * e0 + 2 * η / μ
  have hexp1 : ∀ t, a ≤ t → Real.exp (-(μ * (t - a) / 2)) ≤ 1 := fun t ht =>
    Real.exp_le_one_iff.2 (by have := mul_nonneg hμ.le (sub_nonneg.2 ht); linarith)
  have htube : ∀ t x, a ≤ t → Inv t x → ‖x - y t‖ ≤ 1 := by
    intro t x ht hx
    refine (norm_le_eucl _).trans (le_trans hx ?_)
    have a1 := mul_le_mul_of_nonneg_right (hexp1 t ht) he0n
    have e1 : h ^ 5 ≤ h := by simpa using pow_le_pow_of_le_one h0 d2 (show 1 ≤ 5 by norm_num)
    have e2 : 2 * η / μ = 2 * (c * C) / μ * h ^ 5 := by rw [hη]; ring
    have e3 : 2 * (c * C) / μ * h ^ 5 ≤ 2 * (c * C) / μ * h := mul_le_mul_of_nonneg_left e1 (by positivity)
    rw [le_div_iff₀ hQ] at d3 d4
    have e4 : 0 ≤ h * (2 * c) := by positivity
    have e5 : 0 ≤ ‖x0 - y a‖ * (4 * (c * C) / μ) := by positivity
    have e6 : 4 * (c * C) / μ = 2 * (2 * (c * C) / μ) := by ring
    rw [e6] at d3 d4 e5
    generalize 2 * (c * C) / μ = q at *
    nlinarith
  have hball : ∀ t x, a ≤ t → t ≤ b → Inv t x → ‖x‖ ≤ R + 1 := by
    intro t x h1 h2 h3
    have a1 := htube t x h1 h3
    have a2 := hyR t ⟨h1, h2⟩
    have a3 : ‖x‖ ≤ ‖x - y t‖ + ‖y t‖ := by simpa using norm_add_le (x - y t) (y t)
    linarith
  have hinv : ∀ t s x, a ≤ t → 0 ≤ s → s ≤ h → t + s ≤ b → Inv t x → Inv (t + s) (dopri5Map F x t s) := by
    intro t s x h1 h2 h2' h3 h4
    have hsub : Icc t (t + s) ⊆ Icc a b := Icc_subset_Icc h1 h3
    have hyt : ‖y t‖ ≤ R + 1 := (hyR t ⟨h1, by linarith⟩).trans (by linarith)
    obtain ⟨f0, f1⟩ := hcon x (y t) t s (hball t x h1 (by linarith) h4) hyt h2 (by linarith)
    have f2 := hloc y t s h2 (by linarith) (fun u hu => ⟨(hy u (hsub hu)).mono hsub, hyR u (hsub hu)⟩)
    have f3 : eucl (dopri5Map F (y t) t s - y (t + s)) ≤ η * s := by
      refine (hcv _).trans ((mul_le_mul_of_nonneg_left f2 hc0.le).trans ?_)
      have g1 : C * s ^ (5 + 1) ≤ C * h ^ 5 * s := by
        calc C * s ^ (5 + 1) = C * s ^ 5 * s := by ring
          _ ≤ C * h ^ 5 * s := by gcongr
      have := mul_le_mul_of_nonneg_left g1 hc0.le
      rw [hη]
      linarith
    have e : dopri5Map F x t s - y (t + s) =
        (dopri5Map F x t s - dopri5Map F (y t) t s) + (dopri5Map F (y t) t s - y (t + s)) := by abel
    change eucl (dopri5Map F x t s - y (t + s)) ≤ _
    rw [e]
    refine (eucl_add_le _ _).trans ((add_le_add f1 f3).trans ?_)
    have g1 := mul_le_mul_of_nonneg_left h4 f0
    have g2 := exp_step (μ := μ) (g := s) (τ := t - a)
    have g3 : t - a + s = t + s - a := by ring
    rw [g3] at g2
    have g4 := mul_le_mul_of_nonneg_right g2 he0n
    have g5 : (1 - μ * s / 2) * (2 * η / μ) + η * s = 2 * η / μ := by field_simp; ring
    linarith
  have hstart : Inv a x0 := by
    change e0 ≤ _
    have : 0 ≤ 2 * η / μ := by positivity
    simpa using this
  obtain ⟨Tl, hTl⟩ : ∃ Tl, (t1 :: rest).getLast? = some Tl := ⟨_, List.getLast?_eq_some_getLast (by simp)⟩
  have hTlm : Tl ∈ t1 :: rest := List.mem_of_getLast? hTl
  have hTlb : Tl ≤ b := hb Tl (List.mem_cons_of_mem _ hTlm)
  set δs := min δe (atol / (2 * (E + 1))) with hδs
  have H1 := fun (dt : ℝ) (hdt : 0 < dt) => adaptive_terminates_good hs (by norm_num [dopri5Solver]) rfl rfl rfl (fun _ x => F x)
    hinc hTl atol rtol (odeintInterp (dopri5Solver (Except PyErr) ℝ (ι → ℝ) A) false) false sel (δ := δs)
    (lt_min hδe (by positivity))
    (fun x t k => k = F x ∧ Inv t x)
    (by
      rintro x t dt k1 x' e st ⟨rfl, hx⟩ ht0 hdt hle hnext hst
      refine ⟨rfl, ?_⟩
      obtain ⟨c, hc, hc1, hc2⟩ := exists_next a (t1 :: rest) hinc hgap ht0 ⟨Tl, hTlm, by linarith⟩
      have hdth : dt ≤ h := by
        have := hnext rfl c hc hc1
        linarith
      have hst' := (hs.first_stage (fun _ x => F x) x t dt).symm.trans hst
      have hx' : x' = dopri5Map F x t dt := dopri5_step_rk _ x t dt hst'
      rw [hx']
      exact hinv t dt x ht0 hdt.le hdth (by linarith) hx)
    (by
      rintro x t dt k1 k x' e st ⟨rfl, hx⟩ ht0 htT hdt hle hst
      have hst' := (hs.first_stage (fun _ x => F x) x t dt).symm.trans hst
      have he := dopri5_step_err _ x t dt hst'
      have hb := herr 0 dt x le_rfl le_rfl hdt.le (hle.trans (min_le_left _ _)) (hball t x ht0 (by linarith) hx)
      rw [show rkStagesT (fun _ x => F x) x t dt ((0 :: (constructDopri5 ℝ).c).zip (butcherRows (constructDopri5 ℝ))) [] =
        rkStagesT (fun _ x => F x) x 0 dt ((0 :: (constructDopri5 ℝ).c).zip (butcherRows (constructDopri5 ℝ))) [] by
          rw [rkStagesT_autonomous, rkStagesT_autonomous]] at he
      have hb' : ∀ i, |e i| ≤ E * dt := by
        intro i
        refine (norm_le_pi_norm e i).trans ?_
        rw [he, norm_smul, Real.norm_of_nonneg hdt.le, mul_comm]
        exact mul_le_mul_of_nonneg_right hb hdt.le
      refine lt_of_le_of_lt (errorNorm_le sel atol rtol hat hrt x x' _ (E * dt) (by positivity) hb') ?_
      rw [div_lt_one hat]
      have e1 : (E + 1) * dt ≤ (E + 1) * (atol / (2 * (E + 1))) :=
        mul_le_mul_of_nonneg_left (hle.trans (min_le_right _ _)) (by positivity)
      have e2 : (E + 1) * (atol / (2 * (E + 1))) = atol / 2 := by field_simp
      rw [e2] at e1
      linarith)
    (F x0) x0 ⟨rfl, hstart⟩ hdt
  obtain ⟨dt, hdt, hinit, -⟩ := odeint_forward 0 (fun _ x => F x) x0 rest (dopri5Solver (Except PyErr) ℝ (ι → ℝ) A) hs.adaptive
    atol rtol false false saveAt args sel h01.le
  obtain ⟨fuel, ts, xs, hrun⟩ := H1 dt hdt
  obtain ⟨dt', _, hinit', e⟩ := odeint_forward fuel (fun _ x => F x) x0 rest (dopri5Solver (Except PyErr) ℝ (ι → ℝ) A)
    hs.adaptive atol rtol false false saveAt args sel h01.le
  rw [hinit] at hinit'
  cases hinit'
  have hrun' : odeint fuel (pureField fun _ x => F x) x0 (a :: t1 :: rest) (dopri5Solver (Except PyErr) ℝ (ι → ℝ) A) atol rtol
      false false saveAt args sel = .ok (some (ts, xs)) := by rw [e]; exact hrun
  obtain ⟨r, hr, h21⟩ := C21_times hs (fun _ x => F x) x0 a t1 rest hinc atol rtol false saveAt sel fuel
  rw [hrun'] at hr
  obtain ⟨hts, hlen, hx0'⟩ := h21 ts xs (Except.ok.inj hr).symm
  subst hts
  obtain ⟨-, -, -, hch⟩ := C22_accepted hs (fun _ x => F x) x0 a t1 rest hinc atol rtol false false (Or.inl rfl) saveAt sel fuel
    _ xs hrun'
  refine ⟨fuel, xs, fun fuel' hle => C21_fuel_irrelevant hs _ x0 a t1 rest atol rtol false false saveAt sel fuel fuel' hle _
    hrun', hlen, hx0', ?_⟩
  have hage : ∀ t ∈ a :: t1 :: rest, a ≤ t := by
    intro t ht
    rcases List.mem_cons.1 ht with rfl | hm
    · exact le_rfl
    · exact ((List.pairwise_cons.1 hinc).1 t hm).le
  have key : ∀ (k : ℕ) (t : ℝ) (x : ι → ℝ), (a :: t1 :: rest)[k]? = some t → xs[k]? = some x → Inv t x := by
    intro k
    induction k with
    | zero =>
      intro t x ht hx
      rw [hx0'] at hx
      simp only [List.getElem?_cons_zero, Option.some.injEq] at ht hx
      subst ht hx
      exact hstart
    | succ k ih =>
      intro t' x' ht' hx'
      have hk : k + 1 < (a :: t1 :: rest).length := (List.getElem?_eq_some_iff.1 ht').1
      obtain ⟨t, ht⟩ : ∃ t, (a :: t1 :: rest)[k]? = some t := ⟨_, List.getElem?_eq_getElem (by omega)⟩
      obtain ⟨x, hx⟩ : ∃ x, xs[k]? = some x := ⟨_, List.getElem?_eq_getElem (by omega)⟩
      have hat' := hage t (List.mem_of_getElem? ht)
      have htb := hb t' (List.mem_of_getElem? ht')
      have hg := hgap k t t' ht ht'
      have hI := ih t x ht hx
      have hreach := hch k t x t' x' ht hx ht' hx'
      have gen : ∀ q, Reached (dopri5Solver (Except PyErr) ℝ (ι → ℝ) A) args (fun _ x => F x) sel atol rtol (t, x) q →
          q.1 ≤ t' → t ≤ q.1 ∧ Inv q.1 q.2 := by
        intro q hq
        induction hq with
        | refl => intro _; exact ⟨le_rfl, hI⟩
        | @tail q r _ hqr ih =>
          intro hrt'
          obtain ⟨hlt, k, e, st, hst, -⟩ := hqr
          obtain ⟨g1, g2⟩ := ih (by linarith)
          refine ⟨by linarith, ?_⟩
          have hx : r.2 = dopri5Map F q.2 q.1 (r.1 - q.1) := dopri5_step_rk _ _ _ _ hst
          have := hinv q.1 (r.1 - q.1) q.2 (by linarith) (by linarith) (by linarith) (by linarith) g2
          rw [← hx, show q.1 + (r.1 - q.1) = r.1 by ring] at this
          exact this
      exact (gen _ hreach le_rfl).2
  intro k t x ht hx
  refine (norm_le_eucl _).trans ((key k t x ht hx).trans ?_)
  have a1 := mul_le_mul_of_nonneg_left he0c (Real.exp_nonneg (-(μ * (t - a) / 2)))
  have a2 : 2 * η / μ = 2 * (c * C) / μ * h ^ 5 := by rw [hη]; ring
  have a3 : 0 ≤ 2 * (c * C) / μ * (Real.exp (-(μ * (t - a) / 2)) * ‖x0 - y a‖) := by positivity
  have a4 : 0 ≤ c * h ^ 5 := by positivity
  rw [a2]
  linarith

/-- Non-vacuity: `x' = -x - x³` contracts at rate 1 although it is not Lipschitz, and rests at 0: for every horizon the states from
an initial state near 0 decay. -/
example : ∃ C δ : ℝ, 0 < δ ∧ ∀ (x0 : Fin 1 → ℝ) (t1 : ℝ) (rest : List ℝ) (h : ℝ), ‖x0‖ ≤ δ → h ≤ δ →
    Increasing (0 :: t1 :: rest) → GapsAtMost h (0 :: t1 :: rest) →
    ∃ fuel0 xs, (∀ fuel, fuel0 ≤ fuel → odeint fuel (pureField fun _ x i => -x i - x i ^ 3) x0 (0 :: t1 :: rest)
        (dopri5Solver (Except PyErr) ℝ (Fin 1 → ℝ) Unit) (1 / 1000) (1 / 1000) false false [] () Finset.univ =
          .ok (some (0 :: t1 :: rest, xs))) ∧
      ∀ (k : ℕ) (t : ℝ) (x : Fin 1 → ℝ), (0 :: t1 :: rest)[k]? = some t → xs[k]? = some x →
        ‖x‖ ≤ C * (Real.exp (-(t / 2)) * ‖x0‖ + h ^ 5) := by
  obtain ⟨C, δ, -, hδ, H⟩ := C155_dopri5 (ι := Fin 1) (A := Unit) (F := fun x i => -x i - x i ^ 3)
    (contDiff_pi.2 fun i => (contDiff_apply ℝ ℝ i).neg.sub ((contDiff_apply ℝ ℝ i).pow 3)) (μ := 1) one_pos
    (fun x y => by
      simp only [Finset.univ_unique, Finset.sum_singleton]
      generalize x 0 = u
      generalize y 0 = v
      have h1 : 0 ≤ (u - v) ^ 2 * (u ^ 2 + u * v + v ^ 2) :=
        mul_nonneg (sq_nonneg _) (by nlinarith [sq_nonneg (u + v), sq_nonneg u, sq_nonneg v])
      nlinarith) () 0
  refine ⟨C, δ, hδ, fun x0 t1 rest h hx0 hh hinc hgap => ?_⟩
  have hmem : ∀ t ∈ (0 : ℝ) :: t1 :: rest, t ≤ (t1 :: rest).foldr max 0 := by
    intro t ht
    rcases List.mem_cons.1 ht with rfl | ht
    · have : ∀ l : List ℝ, 0 ≤ l.foldr max 0 := fun l => by induction l with
        | nil => simp
        | cons a l ih => exact le_max_of_le_right ih
      exact this _
    · have : ∀ l : List ℝ, ∀ t ∈ l, t ≤ l.foldr max 0 := fun l => by induction l with
        | nil => simp
        | cons a l ih =>
          intro t ht
          rcases List.mem_cons.1 ht with rfl | ht
          · exact le_max_left _ _
          · exact le_max_of_le_right (ih t ht)
      exact this _ t ht
  obtain ⟨fuel0, xs, h1, -, -, h4⟩ := H (fun _ => 0) 0 _
    (fun t _ => by
      have : (fun i : Fin 1 => -(0 : Fin 1 → ℝ) i - (0 : Fin 1 → ℝ) i ^ 3) = 0 := by funext; simp
      rw [this]
      exact hasDerivWithinAt_const _ _ _) (fun t _ => by simp) x0 t1 rest h (1 / 1000) (1 / 1000) [] Finset.univ
    (by simpa using hx0) hh hinc hmem hgap (by norm_num) (by norm_num)
  refine ⟨fuel0, xs, h1, fun k t x hk hx => ?_⟩
  have := h4 k t x hk hx
  simpa using this

/-- The steps of the fixed-step methods as Runge-Kutta methods with weights that sum to one. -/
theorem ExplicitMethod.rk {solver : Solver (Except PyErr) ℝ (ι → ℝ) A} {p : ℕ} (hm : ExplicitMethod (ι → ℝ) A solver p) (args : A)
    {F : (ι → ℝ) → ι → ℝ} (hF : ContDiff ℝ p F) (R : ℝ) :
    ∃ (rows : List (ℝ × List ℝ)) (w : List ℝ), w.sum = 1 ∧ w.length ≤ rows.length ∧
      SteppedBy solver (fun _ x => F x) args (fun x t s => x + s • comb w (rkStagesT (fun _ => F) x t s rows [])) ∧
      OneStepNear p (fun x t s => x + s • comb w (rkStagesT (fun _ => F) x t s rows [])) (fun _ x => F x) R 0 1 := by
  cases hm with
  | euler =>
    refine ⟨[(0, [])], [1], by simp, by simp, ?_⟩
    have e : (fun (x : ι → ℝ) (t s : ℝ) => x + s • comb [1] (rkStagesT (fun _ => F) x t s [(0, [])] [])) =
        fun x _ s => x + s • F x := by
      funext x t s
      simp [rkStagesT, comb]
    rw [e]
    exact ⟨euler_steppedBy _ args, euler_one_step (by exact_mod_cast hF.comp contDiff_snd) 0 1 R⟩
  | midpoint =>
    refine ⟨[(0, []), (1 / 2, [1 / 2])], [0, 1], by simp, by simp, ?_⟩
    have e : (fun (x : ι → ℝ) (t s : ℝ) => x + s • comb [0, 1] (rkStagesT (fun _ => F) x t s [(0, []), (1 / 2, [1 / 2])] [])) =
        fun x _ s => x + s • F (x + ((1 / 2 : ℝ) * s) • F x) := by
      funext x t s
      simp [rkStagesT, comb, smul_smul, mul_comm]
    rw [e]
    exact ⟨midpoint_steppedBy _ args, midpoint_one_step (by exact_mod_cast hF.comp contDiff_snd) 0 1 R⟩
  | rk4 =>
    refine ⟨[(0, []), (0, [1 / 2]), (1 / 2, [0, 1 / 2]), (1 / 2, [0, 0, 1])], [1 / 6, 1 / 3, 1 / 3, 1 / 6], by norm_num, by simp, ?_⟩
    have e : (fun (x : ι → ℝ) (t s : ℝ) => x + s • comb [1 / 6, 1 / 3, 1 / 3, 1 / 6] (rkStagesT (fun _ => F) x t s
        [(0, []), (0, [1 / 2]), (1 / 2, [0, 1 / 2]), (1 / 2, [0, 0, 1])] [])) = rk4Update (fun _ x => F x) := by
      funext x t s
      exact (rk4_rkT (fun _ x => F x) x t s).symm
    rw [e]
    exact ⟨rk4_steppedBy _ args, rk4_one_step (by exact_mod_cast hF) 0 1 R⟩

/-- **C155.** The same for the steps of `euler`, `midpoint` and `rk4`, which `odeint` returns on the grids it accepts: contracting
fields need not be Lipschitz. -/
theorem C155_local {solver : Solver (Except PyErr) ℝ (ι → ℝ) A} {p : ℕ} (hm : ExplicitMethod (ι → ℝ) A solver p) (args : A)
    {F : (ι → ℝ) → ι → ℝ} (hF2 : ContDiff ℝ 2 F) (hF : ContDiff ℝ p F) {μ : ℝ} (hμ : 0 < μ) (hc : ContractingEuclid μ F) (R : ℝ) :
    ∃ C δ, 0 ≤ C ∧ 0 < δ ∧ ∀ (y : ℝ → ι → ℝ) (a b : ℝ),
    (∀ t ∈ Icc a b, HasDerivWithinAt y (F (y t)) (Icc a b) t) → (∀ t ∈ Icc a b, ‖y t‖ ≤ R) →
    ∀ (x0 : ι → ℝ) (t1 : ℝ) (rest : List ℝ) (h : ℝ), ‖x0 - y a‖ ≤ δ → h ≤ δ →
    Increasing (a :: t1 :: rest) → (∀ t ∈ a :: t1 :: rest, t ≤ b) → GapsAtMost h (a :: t1 :: rest) →
    ∃ φ xs, SteppedBy solver (fun _ x => F x) args φ ∧ IsTrajectory φ x0 (a :: t1 :: rest) xs ∧
      (Separated (a :: t1 :: rest) →
        odeintFixed (pureField fun _ x => F x) x0 (a :: t1 :: rest) solver [] args = .ok (a :: t1 :: rest, xs)) ∧
      ∀ (k : ℕ) (t : ℝ) (x : ι → ℝ), (a :: t1 :: rest)[k]? = some t → xs[k]? = some x →
        ‖x - y t‖ ≤ C * (Real.exp (-(μ * (t - a) / 2)) * ‖x0 - y a‖ + h ^ p) := by
  obtain ⟨rows, w, hw, hwl, hs, hone⟩ := hm.rk args hF R
  have hp : 1 ≤ p := by cases hm <;> norm_num
  obtain ⟨C, δ, hC, hδ, hloc⟩ := local_error_shift (F := F) _
    (fun x t s => by rw [rkStagesT_autonomous, rkStagesT_autonomous]) hone
  obtain ⟨δc, hδc, hcon⟩ := rk_contract_local hF2 hμ hc rows w hw hwl (R + 1)
  generalize hφ : (fun (x : ι → ℝ) (t s : ℝ) => x + s • comb w (rkStagesT (fun _ => F) x t s rows [])) = φ at *
  have hcon' : ∀ (x y : ι → ℝ) (t s : ℝ), ‖x‖ ≤ R + 1 → ‖y‖ ≤ R + 1 → 0 ≤ s → s ≤ δc → 0 ≤ 1 - μ * s / 2 ∧
      eucl (φ x t s - φ y t s) ≤ (1 - μ * s / 2) * eucl (x - y) := by
    rw [← hφ]
    exact hcon
  have hloc' : ∀ (y : ℝ → ι → ℝ) (t h : ℝ), 0 ≤ h → h ≤ δ →
      (∀ s ∈ Icc t (t + h), HasDerivWithinAt y (F (y s)) (Icc t (t + h)) s ∧ ‖y s‖ ≤ R) →
      ‖φ (y t) t h - y (t + h)‖ ≤ C * h ^ (p + 1) := by
    rw [← hφ]
    exact hloc
  obtain ⟨c, hc0, hcv⟩ := exists_eucl_le (ι := ι)
  have hQ : 0 < 2 * c + 4 * (c * C) / μ := by positivity
  refine ⟨c + 2 * (c * C) / μ, min (min δ δc) (min 1 (1 / (2 * c + 4 * (c * C) / μ))), by positivity,
    lt_min (lt_min hδ hδc) (lt_min one_pos (by positivity)), ?_⟩
  intro y a b hy hyR x0 t1 rest h hx0 hh hinc hb hgap
  have h01 : a < t1 := (List.pairwise_cons.1 hinc).1 t1 (by simp)
  have h0 : 0 ≤ h := by linarith [hgap 0 a t1 rfl rfl]
  have d1 : h ≤ δ := hh.trans ((min_le_left _ _).trans (min_le_left _ _))
  have d1c : h ≤ δc := hh.trans ((min_le_left _ _).trans (min_le_right _ _))
  have d2 : h ≤ 1 := hh.trans ((min_le_right _ _).trans (min_le_left _ _))
  have d3 : h ≤ 1 / (2 * c + 4 * (c * C) / μ) := hh.trans ((min_le_right _ _).trans (min_le_right _ _))
  have d4 : ‖x0 - y a‖ ≤ 1 / (2 * c + 4 * (c * C) / μ) := hx0.trans ((min_le_right _ _).trans (min_le_right _ _))
  set η := c * (C * h ^ p) with hη
  have hη0 : 0 ≤ η := by positivity
  set e0 := eucl (x0 - y a) with he0
  have he0n : 0 ≤ e0 := norm_nonneg _
  have he0c : e0 ≤ c * ‖x0 - y a‖ := hcv _
  have tr := gridStates_isTrajectory φ x0 (a :: t1 :: rest) (by simp)
  have hrun := odeintFixed_gridStates hs x0 a t1 rest h01.le
  generalize gridStates φ x0 (a :: t1 :: rest) = xs at tr hrun
  refine ⟨φ, xs, hs, tr, hrun, ?_⟩
  have hage : ∀ t ∈ a :: t1 :: rest, a ≤ t := by
    intro t ht
    rcases List.mem_cons.1 ht with rfl | hm
    · exact le_rfl
    · exact ((List.pairwise_cons.1 hinc).1 t hm).le
  have key : ∀ (k : ℕ) (t : ℝ) (x : ι → ℝ), (a :: t1 :: rest)[k]? = some t → xs[k]? = some x →
      eucl (x - y t) ≤ Real.exp (-(μ * (t - a) / 2)) * e0 + 2 * η / μ := by
    intro k
    induction k with
    | zero =>
      intro t x ht hx
      rw [tr.start] at hx
      simp only [List.getElem?_cons_zero, Option.some.injEq] at ht hx
      subst ht hx
      have h2 : 0 ≤ 2 * η / μ := by positivity
      rw [sub_self, mul_zero, zero_div, neg_zero, Real.exp_zero, one_mul, ← he0]
      linarith
    | succ k ih =>
      intro t' x' ht' hx'
      have hk : k + 1 < (a :: t1 :: rest).length := (List.getElem?_eq_some_iff.1 ht').1
      obtain ⟨t, ht⟩ : ∃ t, (a :: t1 :: rest)[k]? = some t := ⟨_, List.getElem?_eq_getElem (by omega)⟩
      obtain ⟨x, hx⟩ : ∃ x, xs[k]? = some x := ⟨_, List.getElem?_eq_getElem (by rw [tr.length_eq]; omega)⟩
      have hnext := tr.next k t t' x ht ht' hx
      rw [hx'] at hnext
      cases hnext
      have hat := hage t (List.mem_of_getElem? ht)
      have htb := hb t' (List.mem_of_getElem? ht')
      have hg := hgap k t t' ht ht'
      have hg0 := grid_gap hinc ht ht'
      have hI := ih t x ht hx
      have e1 : t + (t' - t) = t' := by ring
      have hyt : ‖y t‖ ≤ R := hyR t ⟨hat, by linarith⟩
      have htube : ‖x - y t‖ ≤ 1 := by
        refine (norm_le_eucl _).trans (hI.trans ?_)
        have a1 : Real.exp (-(μ * (t - a) / 2)) * e0 ≤ 1 * e0 := mul_le_mul_of_nonneg_right
          (Real.exp_le_one_iff.2 (by have := mul_nonneg hμ.le (sub_nonneg.2 hat); linarith)) he0n
        have e1 : h ^ p ≤ h := by simpa using pow_le_pow_of_le_one h0 d2 hp
        have e2 : 2 * η / μ = 2 * (c * C) / μ * h ^ p := by rw [hη]; ring
        have e3 : 2 * (c * C) / μ * h ^ p ≤ 2 * (c * C) / μ * h := mul_le_mul_of_nonneg_left e1 (by positivity)
        rw [le_div_iff₀ hQ] at d3 d4
        have e4 : 0 ≤ h * (2 * c) := by positivity
        have e5 : 0 ≤ ‖x0 - y a‖ * (4 * (c * C) / μ) := by positivity
        have e6 : 4 * (c * C) / μ = 2 * (2 * (c * C) / μ) := by ring
        rw [e6] at d3 d4 e5
        generalize 2 * (c * C) / μ = q at *
        nlinarith
      have hxR : ‖x‖ ≤ R + 1 := by
        have a3 : ‖x‖ ≤ ‖x - y t‖ + ‖y t‖ := by simpa using norm_add_le (x - y t) (y t)
        linarith
      obtain ⟨f0, f1⟩ := hcon' x (y t) t (t' - t) hxR (by linarith) hg0 (by linarith)
      have hsub : Icc t (t + (t' - t)) ⊆ Icc a b := Icc_subset_Icc hat (by rw [e1]; exact htb)
      have f2 := hloc' y t (t' - t) hg0 (by linarith) (fun u hu => ⟨(hy u (hsub hu)).mono hsub, hyR u (hsub hu)⟩)
      rw [e1] at f2
      have f3 : eucl (φ (y t) t (t' - t) - y t') ≤ η * (t' - t) := by
        refine (hcv _).trans ((mul_le_mul_of_nonneg_left f2 hc0.le).trans ?_)
        have g1 : C * (t' - t) ^ (p + 1) ≤ C * h ^ p * (t' - t) := by
          rw [pow_succ, ← mul_assoc]
          gcongr
        have := mul_le_mul_of_nonneg_left g1 hc0.le
        rw [hη]
        linarith
      have e : φ x t (t' - t) - y t' = (φ x t (t' - t) - φ (y t) t (t' - t)) + (φ (y t) t (t' - t) - y t') := by abel
      rw [e]
      refine (eucl_add_le _ _).trans ((add_le_add f1 f3).trans ?_)
      have g1 := mul_le_mul_of_nonneg_left hI f0
      have g2 := exp_step (μ := μ) (g := t' - t) (τ := t - a)
      have g3 : t - a + (t' - t) = t' - a := by ring
      rw [g3] at g2
      have g4 := mul_le_mul_of_nonneg_right g2 he0n
      have g5 : (1 - μ * (t' - t) / 2) * (2 * η / μ) + η * (t' - t) = 2 * η / μ := by field_simp; ring
      linarith
  intro k t x ht hx
  refine (norm_le_eucl _).trans ((key k t x ht hx).trans ?_)
  have a1 := mul_le_mul_of_nonneg_left he0c (Real.exp_nonneg (-(μ * (t - a) / 2)))
  have a2 : 2 * η / μ = 2 * (c * C) / μ * h ^ p := by rw [hη]; ring
  have a3 : 0 ≤ 2 * (c * C) / μ * (Real.exp (-(μ * (t - a) / 2)) * ‖x0 - y a‖) := by positivity
  have a4 : 0 ≤ c * h ^ p := by positivity
  rw [a2]
  linarith

/-- Non-vacuity: `euler` on `x' = -x - x³` near the solution at rest, on the horizon `[0, T]`. -/
example (T : ℝ) : ∃ C δ : ℝ, 0 < δ ∧ ∀ (x0 : Fin 1 → ℝ) (t1 : ℝ) (rest : List ℝ) (h : ℝ), ‖x0‖ ≤ δ → h ≤ δ →
    Increasing (0 :: t1 :: rest) → (∀ t ∈ 0 :: t1 :: rest, t ≤ T) → GapsAtMost h (0 :: t1 :: rest) →
    ∃ φ xs, SteppedBy (eulerSolver (Except PyErr) ℝ (Fin 1 → ℝ) Unit) (fun _ x i => -x i - x i ^ 3) () φ ∧
      IsTrajectory φ x0 (0 :: t1 :: rest) xs ∧
      (Separated (0 :: t1 :: rest) → odeintFixed (pureField fun _ x i => -x i - x i ^ 3) x0 (0 :: t1 :: rest)
        (eulerSolver (Except PyErr) ℝ (Fin 1 → ℝ) Unit) [] () = .ok (0 :: t1 :: rest, xs)) ∧
      ∀ (k : ℕ) (t : ℝ) (x : Fin 1 → ℝ), (0 :: t1 :: rest)[k]? = some t → xs[k]? = some x →
        ‖x‖ ≤ C * (Real.exp (-(t / 2)) * ‖x0‖ + h) := by
  have hd : ∀ n : ℕ, ContDiff ℝ n (fun (x : Fin 1 → ℝ) i => -x i - x i ^ 3) := fun n =>
    contDiff_pi.2 fun i => (contDiff_apply ℝ ℝ i).neg.sub ((contDiff_apply ℝ ℝ i).pow 3)
  obtain ⟨C, δ, -, hδ, H⟩ := C155_local (ι := Fin 1) (A := Unit) (F := fun x i => -x i - x i ^ 3) .euler ()
    (by exact_mod_cast hd 2) (hd 1) (μ := 1) one_pos
    (fun x y => by
      simp only [Finset.univ_unique, Finset.sum_singleton]
      generalize x _ = u
      generalize y _ = v
      have h1 : 0 ≤ (u - v) ^ 2 * (u ^ 2 + u * v + v ^ 2) :=
        mul_nonneg (sq_nonneg _) (by nlinarith [sq_nonneg (u + v), sq_nonneg u, sq_nonneg v])
      nlinarith) 0
  refine ⟨C, δ, hδ, fun x0 t1 rest h hx0 hh hinc hT hgap => ?_⟩
  obtain ⟨φ, xs, h1, h2, h4, h3⟩ := H (fun _ => 0) 0 T
    (fun t _ => by
      have : (fun i : Fin 1 => -(0 : Fin 1 → ℝ) i - (0 : Fin 1 → ℝ) i ^ 3) = 0 := by funext; simp
      rw [this]
      exact hasDerivWithinAt_const _ _ _) (fun t _ => by simp) x0 t1 rest h (by simpa using hx0) hh hinc hT hgap
  refine ⟨φ, xs, h1, h2, h4, fun k t x hk hx => ?_⟩
  have := h3 k t x hk hx
  simpa using this

end Torchdyn
