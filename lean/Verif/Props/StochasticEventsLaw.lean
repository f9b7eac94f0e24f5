import Verif.Spec.ExpThresholds
import Verif.Props.StochasticEvents

/-!
Property C149: the law of the jump times of `odeint_hybrid` when the thresholds are independent exponential samples.
-/

set_option linter.unusedSectionVars false
set_option linter.unusedSimpArgs false

namespace Torchdyn

open Spec MeasureTheory ProbabilityTheory

variable {ι A : Type} [Fintype ι] {solver : Solver (Except PyErr) ℝ (ι → ℝ) A} {args : A}

instance exp_prob : IsProbabilityMeasure (expMeasure 1) := isProbabilityMeasure_expMeasure one_pos

instance expThresholds_prob : IsProbabilityMeasure expThresholds := by
  unfold expThresholds; infer_instance

theorem exp_Iic {a : ℝ} (ha : 0 ≤ a) : expMeasure 1 (Set.Iic a) = ENNReal.ofReal (1 - Real.exp (-a)) := by
  rw [← ofReal_cdf, cdf_expMeasure_eq one_pos, if_pos ha, one_mul]

theorem exp_Ioi {a : ℝ} (ha : 0 ≤ a) : expMeasure 1 (Set.Ioi a) = ENNReal.ofReal (Real.exp (-a)) := by
  have h : (Set.Ioi a) = (Set.Iic a)ᶜ := by ext; simp
  rw [h, prob_compl_eq_one_sub measurableSet_Iic, exp_Iic ha, ← ENNReal.ofReal_one, ← ENNReal.ofReal_sub]
  · congr 1; ring
  · have : Real.exp (-a) ≤ 1 := Real.exp_le_one_iff.2 (by linarith)
    linarith

theorem threshold_law (n : ℕ) {B : Set ℝ} (hB : MeasurableSet B) : expThresholds {ω | ω n ∈ B} = expMeasure 1 B := by
  have h := Measure.infinitePi_map_eval (fun _ : ℕ => expMeasure 1) n
  rw [← h, Measure.map_apply (measurable_pi_apply n) hB]
  rfl

theorem thresholds_pos : ∀ᵐ ω ∂expThresholds, ∀ n, 0 < ω n := by
  rw [ae_all_iff]
  intro n
  rw [ae_iff]
  have h := threshold_law n (measurableSet_Iic (a := (0 : ℝ)))
  rw [exp_Iic le_rfl] at h
  simpa using h

theorem thresholds_unbounded (c : ℝ) : ∀ᵐ ω ∂expThresholds, ∃ k, c < ω k := by
  rw [ae_iff]
  simp only [not_exists, not_lt]
  have hq : expMeasure 1 (Set.Iic c) < 1 := by
    have h1 : expMeasure 1 (Set.Iic c) ≤ expMeasure 1 (Set.Iic (max c 0)) := measure_mono (Set.Iic_subset_Iic.2 (le_max_left _ _))
    refine h1.trans_lt ?_
    rw [exp_Iic (le_max_right _ _), ← ENNReal.ofReal_one]
    exact (ENNReal.ofReal_lt_ofReal_iff one_pos).2 (by have := Real.exp_pos (-(max c 0)); linarith)
  have hle : ∀ N : ℕ, expThresholds {ω | ∀ k, ω k ≤ c} ≤ expMeasure 1 (Set.Iic c) ^ N := by
    intro N
    have h := Measure.infinitePi_pi (μ := fun _ : ℕ => expMeasure 1) (s := Finset.range N) (t := fun _ => Set.Iic c)
      (fun _ _ => measurableSet_Iic)
    rw [Finset.prod_const, Finset.card_range] at h
    rw [← h]
    exact measure_mono fun ω hω k _ => hω k
  have hlim := ENNReal.tendsto_pow_atTop_nhds_zero_of_lt_one hq
  exact le_antisymm (ge_of_tendsto' hlim hle) bot_le

theorem clockRun_end {f : ℝ → (ι → ℝ) → (ι → ℝ)} {sel : Finset ι} {atol rtol tol : ℝ} {j : ι}
    {g : ℝ → (ι → ℝ) → (ι → ℝ)} {r : ℝ} (hg : ∀ t x, g t x j = 0) {ω : ℕ → ℝ} (hω : ∀ n, 0 < ω n) {t0 T : ℝ} {x : ι → ℝ}
    (hx : x j = 0) {l : List (Point ι)} {p : Point ι} {J : List ℝ} {last : ℝ}
    (h : ClockRun solver args f sel atol rtol tol j g r ω t0 T x l p J last) :
    l.getLast? = some p ∧ p.2 j = r * (p.1 - last) ∧ p.2 j < ω J.length := by
  cases h with
  | start => exact ⟨rfl, by simp [hx], by simpa [hx] using hω 0⟩
  | flow _ _ _ h1 h2 => exact ⟨List.getLast?_concat, h1, h2⟩
  | jump => exact ⟨by simp [List.getLast?_append], by simp [hg], by simpa [hg] using hω _⟩

/-- **C149.** `J` are the times of the jumps of a finished call with the thresholds `ω`. -/
def JumpTimes (solver : Solver (Except PyErr) ℝ (ι → ℝ) A) (args : A) (f : ℝ → (ι → ℝ) → (ι → ℝ)) (sel : Finset ι)
    (atol rtol tol : ℝ) (jumpFirst : Bool) (j : ι) (g : ℝ → (ι → ℝ) → (ι → ℝ)) (r : ℝ) (t0 T : ℝ) (tEval : List ℝ) (jSpan : ℕ)
    (x : ι → ℝ) (ω : ℕ → ℝ) (J : List ℝ) : Prop :=
  ∃ fuel σ ts xs p last, odeintHybridStateful fuel (pureField f) x (t0 :: tEval) jSpan solver [clockCallback j g] ω
      atol rtol tol jumpFirst sel args = .ok (some (σ, ts, xs)) ∧
    ClockRun solver args f sel atol rtol tol j g r ω t0 T x (ts.zip xs) p J last

/-- Deterministic content: with positive thresholds one of which is large, the call returns, and its jump times are related to
the arrival times `t0 + (ω 0 + … + ω k) / r`. -/
theorem jumpTimes_exists (hs : FsalSolver solver args) (E : ℝ) (hE : ErrorLinear solver args E)
    (hord : 1 ≤ solver.order) (h1 : solver.safety = 9 / 10) (h2 : solver.minFactor = 1 / 5) (h3 : solver.maxFactor = 10)
    (f : ℝ → (ι → ℝ) → (ι → ℝ)) (M : ℝ) (hM : ∀ t x i, |f t x i| ≤ M) (j : ι) (r : ℝ) (hr : 0 < r)
    (hc : ClockRate solver args f j r) (g : ℝ → (ι → ℝ) → (ι → ℝ)) (hg : ∀ t x, g t x j = 0)
    (x : ι → ℝ) (hx : x j = 0) (t0 T : ℝ) (tEval : List ℝ)
    (hsort : (t0 :: tEval).Pairwise (· ≤ ·)) (hT : (t0 :: tEval).getLast? = some T) (jSpan : ℕ)
    (atol rtol tol : ℝ) (ha : 0 < atol) (hrt : 0 ≤ rtol)
    (htol : T - t0 ≤ 4096 * tol) (jumpFirst : Bool) (sel : Finset ι) (ω : ℕ → ℝ) (hω : ∀ n, 0 < ω n)
    (hbig : ∃ k, r * (T - t0 + tol) < ω k) :
    ∃ J, JumpTimes solver args f sel atol rtol tol jumpFirst j g r t0 T tEval jSpan x ω J := by
  obtain ⟨k, hk⟩ := hbig
  have hN : T - t0 < ∑ i ∈ Finset.range (k + 1), max 0 (ω i / r - tol) := by
    have e1 : T - t0 < ω k / r - tol := by
      have : T - t0 + tol < ω k / r := by rw [lt_div_iff₀ hr]; linarith
      linarith
    have e2 : max 0 (ω k / r - tol) ≤ ∑ i ∈ Finset.range (k + 1), max 0 (ω i / r - tol) :=
      Finset.single_le_sum (f := fun i => max 0 (ω i / r - tol)) (fun i _ => le_max_left _ _) (by simp)
    exact e1.trans_le ((le_max_right _ _).trans e2)
  obtain ⟨fuel, σ, ts, xs, hcall⟩ := C149_returns hs E hE hord h1 h2 h3 f M hM j r hr hc g hg ω hω x hx t0 T tEval hsort hT
    jSpan atol rtol tol ha hrt htol (k + 1) hN jumpFirst sel
  obtain ⟨res, hres, hres'⟩ := C149_clock_run hs f j r hr hc g hg ω hω x hx t0 T tEval hsort hT jSpan atol rtol tol htol
    jumpFirst sel fuel
  obtain rfl : res = some (σ, ts, xs) := by
    have := hres.symm.trans hcall
    cases this; rfl
  obtain ⟨-, p, J, last, hrun, -⟩ := hres' σ ts xs rfl
  exact ⟨J, fuel, σ, ts, xs, p, last, hcall, hrun⟩

/-- At the end of the time span the next threshold has not been reached. -/
theorem jumpTimes_end (hs : FsalSolver solver args) {f : ℝ → (ι → ℝ) → (ι → ℝ)} {j : ι} {r : ℝ} (hr : 0 < r)
    (hc : ClockRate solver args f j r) {g : ℝ → (ι → ℝ) → (ι → ℝ)} (hg : ∀ t x, g t x j = 0)
    {x : ι → ℝ} (hx : x j = 0) {t0 T : ℝ} {tEval : List ℝ}
    (hsort : (t0 :: tEval).Pairwise (· ≤ ·)) (hT : (t0 :: tEval).getLast? = some T) {jSpan : ℕ} (hj : 0 < jSpan)
    {atol rtol tol : ℝ} (htol : T - t0 ≤ 4096 * tol) {jumpFirst : Bool} {sel : Finset ι} {ω : ℕ → ℝ} (hω : ∀ n, 0 < ω n)
    {J : List ℝ} (h : JumpTimes solver args f sel atol rtol tol jumpFirst j g r t0 T tEval jSpan x ω J) :
    HoldingTimes r tol t0 ω J ∧ (∀ last, (t0 :: J).getLast? = some last → r * (T - last) < ω J.length) ∧
      ∀ (k : ℕ) (prev : ℝ), k < J.length → (t0 :: J)[k]? = some prev → ω k ≤ r * (T - prev) := by
  obtain ⟨fuel, σ, ts, xs, p, last, hcall, hrun⟩ := h
  obtain ⟨res, hres, hres'⟩ := C149_clock_run hs f j r hr hc g hg ω hω x hx t0 T tEval hsort hT jSpan atol rtol tol htol
    jumpFirst sel fuel
  obtain rfl : res = some (σ, ts, xs) := by
    have := hres.symm.trans hcall
    cases this; rfl
  obtain ⟨-, p', J', last', hrun', -, hend⟩ := hres' σ ts xs rfl
  obtain ⟨q1, q2, q3⟩ := clockRun_end hg hω hx hrun
  obtain ⟨q1', -, -⟩ := clockRun_end hg hω hx hrun'
  obtain rfl : p = p' := by
    have := q1.symm.trans q1'
    cases this; rfl
  obtain ⟨i1, i2, -, i4⟩ := C149_holding_times hrun
  refine ⟨i1, fun last0 h0 => ?_, i4⟩
  obtain rfl : last = last0 := by
    have := i2.symm.trans h0
    cases this; rfl
  rw [(hend hj).1] at q2
  rw [← q2]
  exact q3

/-- **C149.** Stochastic events whose thresholds are independent `Exponential(1)` samples, with a clock of rate `r`, for a bounded
field, a span of at most 4096 tolerances and a solver that integrates the clock at the rate `r`:
1. with probability one the call returns;
2. the probability that it makes no jump is exactly `exp (-r (T - t0))`, that of the simulated process;
3. the first jump is made by the time `u` with probability at least `1 - exp (-r (u - t0))`, that of the simulated process, and at
   most `1 - exp (-r (u + event_tol - t0))`;
4. jump number `k` is made by the time `u` with probability at least that of `k + 1` arrivals by the time `u`, and at most that of
   `k + 1` arrivals by the time `u + (k + 1) event_tol`. -/
theorem C149_law (hs : FsalSolver solver args) (E : ℝ) (hE : ErrorLinear solver args E)
    (hord : 1 ≤ solver.order) (h1 : solver.safety = 9 / 10) (h2 : solver.minFactor = 1 / 5) (h3 : solver.maxFactor = 10)
    (f : ℝ → (ι → ℝ) → (ι → ℝ)) (M : ℝ) (hM : ∀ t x i, |f t x i| ≤ M) (j : ι) (r : ℝ) (hr : 0 < r)
    (hc : ClockRate solver args f j r) (g : ℝ → (ι → ℝ) → (ι → ℝ)) (hg : ∀ t x, g t x j = 0)
    (x : ι → ℝ) (hx : x j = 0) (t0 T : ℝ) (tEval : List ℝ)
    (hsort : (t0 :: tEval).Pairwise (· ≤ ·)) (hT : (t0 :: tEval).getLast? = some T) (jSpan : ℕ) (hj : 0 < jSpan)
    (atol rtol tol : ℝ) (ha : 0 < atol) (hrt : 0 ≤ rtol)
    (htol : T - t0 ≤ 4096 * tol) (jumpFirst : Bool) (sel : Finset ι) :
    (∀ᵐ ω ∂expThresholds, ∃ J, JumpTimes solver args f sel atol rtol tol jumpFirst j g r t0 T tEval jSpan x ω J) ∧
    expThresholds {ω | JumpTimes solver args f sel atol rtol tol jumpFirst j g r t0 T tEval jSpan x ω []} =
      ENNReal.ofReal (Real.exp (-(r * (T - t0)))) ∧
    (∀ u, t0 ≤ u → u ≤ T →
      ENNReal.ofReal (1 - Real.exp (-(r * (u - t0)))) ≤
        expThresholds {ω | ∃ J τ, JumpTimes solver args f sel atol rtol tol jumpFirst j g r t0 T tEval jSpan x ω J ∧
          J[0]? = some τ ∧ τ ≤ u} ∧
      expThresholds {ω | ∃ J τ, JumpTimes solver args f sel atol rtol tol jumpFirst j g r t0 T tEval jSpan x ω J ∧
          J[0]? = some τ ∧ τ ≤ u} ≤
        ENNReal.ofReal (1 - Real.exp (-(r * (u + tol - t0))))) ∧
    ∀ (k : ℕ) (u : ℝ), u ≤ T →
      expThresholds {ω | t0 + (∑ i ∈ Finset.range (k + 1), ω i) / r ≤ u} ≤
        expThresholds {ω | ∃ J τ, JumpTimes solver args f sel atol rtol tol jumpFirst j g r t0 T tEval jSpan x ω J ∧
          J[k]? = some τ ∧ τ ≤ u} ∧
      expThresholds {ω | ∃ J τ, JumpTimes solver args f sel atol rtol tol jumpFirst j g r t0 T tEval jSpan x ω J ∧
          J[k]? = some τ ∧ τ ≤ u} ≤
        expThresholds {ω | t0 + (∑ i ∈ Finset.range (k + 1), ω i) / r ≤ u + (k + 1) * tol} := by
  have hle : t0 ≤ T := by
    have := List.mem_of_getLast? hT
    rcases List.mem_cons.1 this with h | h
    · exact h.ge
    · exact (List.pairwise_cons.1 hsort).1 T h
  have hret : ∀ᵐ ω ∂expThresholds, (∀ n, 0 < ω n) ∧
      ∃ J, JumpTimes solver args f sel atol rtol tol jumpFirst j g r t0 T tEval jSpan x ω J := by
    filter_upwards [thresholds_pos, thresholds_unbounded (r * (T - t0 + tol))] with ω hω hb
    exact ⟨hω, jumpTimes_exists hs E hE hord h1 h2 h3 f M hM j r hr hc g hg x hx t0 T tEval hsort hT jSpan atol rtol tol ha hrt
      htol jumpFirst sel ω hω hb⟩
  have hend := fun {ω : ℕ → ℝ} (hω : ∀ n, 0 < ω n) {J : List ℝ} => jumpTimes_end (J := J) (rtol := rtol) (atol := atol) (sel := sel)
    (jumpFirst := jumpFirst) hs hr hc hg hx hsort hT hj htol hω
  have hany : ∀ (k : ℕ) (u : ℝ), u ≤ T →
      expThresholds {ω | t0 + (∑ i ∈ Finset.range (k + 1), ω i) / r ≤ u} ≤
        expThresholds {ω | ∃ J τ, JumpTimes solver args f sel atol rtol tol jumpFirst j g r t0 T tEval jSpan x ω J ∧
          J[k]? = some τ ∧ τ ≤ u} ∧
      expThresholds {ω | ∃ J τ, JumpTimes solver args f sel atol rtol tol jumpFirst j g r t0 T tEval jSpan x ω J ∧
          J[k]? = some τ ∧ τ ≤ u} ≤
        expThresholds {ω | t0 + (∑ i ∈ Finset.range (k + 1), ω i) / r ≤ u + (k + 1) * tol} := by
    intro k u hu
    constructor
    · refine measure_mono_ae ?_
      filter_upwards [hret] with ω ⟨hω, J, hJ⟩ hA
      replace hA : t0 + (∑ i ∈ Finset.range (k + 1), ω i) / r ≤ u := hA
      obtain ⟨e1, e2, -⟩ := hend hω hJ
      have hk : k < J.length := by
        by_contra hcon
        have hlen : J.length ≤ k := not_lt.1 hcon
        obtain ⟨last, hlast⟩ : ∃ last, (t0 :: J).getLast? = some last := ⟨_, List.getLast?_eq_some_getLast (by simp)⟩
        have hlt := e2 last hlast
        have hA' : last ≤ t0 + (∑ i ∈ Finset.range J.length, ω i) / r := by
          rcases Nat.eq_zero_or_pos J.length with h0 | h0
          · have : J = [] := List.length_eq_zero_iff.1 h0
            subst this
            simp only [List.getLast?_singleton, Option.some.injEq] at hlast
            simp [hlast]
          · have hg' : J[J.length - 1]? = some last := by
              rw [List.getLast?_eq_getElem?] at hlast
              simp only [List.length_cons, Nat.add_sub_cancel] at hlast
              rw [← hlast]
              obtain ⟨n, hn⟩ : ∃ n, J.length = n + 1 := ⟨J.length - 1, by omega⟩
              rw [hn]
              simp
            have := (C149_arrivals hr e1 (J.length - 1) last hg').1
            rwa [Nat.sub_add_cancel h0] at this
        have hmono : (∑ i ∈ Finset.range (J.length + 1), ω i) ≤ ∑ i ∈ Finset.range (k + 1), ω i :=
          Finset.sum_le_sum_of_subset_of_nonneg (Finset.range_mono (by omega)) fun i _ _ => (hω i).le
        rw [Finset.sum_range_succ] at hmono
        have h5 : T - last < ω J.length / r := by rw [lt_div_iff₀ hr]; linarith
        have h6 : (∑ i ∈ Finset.range J.length, ω i) / r + ω J.length / r ≤ (∑ i ∈ Finset.range (k + 1), ω i) / r := by
          rw [← add_div]; gcongr
        linarith
      exact ⟨J, J[k], hJ, List.getElem?_eq_getElem hk,
        ((C149_arrivals hr e1 k J[k] (List.getElem?_eq_getElem hk)).1).trans hA⟩
    · refine measure_mono_ae ?_
      filter_upwards [hret] with ω ⟨hω, _⟩ hA
      obtain ⟨J, τ, hJ, hτ, hτu⟩ := hA
      obtain ⟨e1, -⟩ := hend hω hJ
      have := (C149_arrivals hr e1 k τ hτ).2
      show t0 + (∑ i ∈ Finset.range (k + 1), ω i) / r ≤ u + (k + 1) * tol
      linarith
  have hset : ∀ v, {ω : ℕ → ℝ | t0 + (∑ i ∈ Finset.range (0 + 1), ω i) / r ≤ v} = {ω | ω 0 ∈ Set.Iic (r * (v - t0))} := by
    intro v
    ext ω
    simp only [zero_add, Finset.sum_range_one, Set.mem_ofPred_eq, Set.mem_Iic]
    rw [← le_sub_iff_add_le', div_le_iff₀ hr, mul_comm]
  refine ⟨hret.mono fun ω h => h.2, ?_, ?_, hany⟩
  · have hae : {ω | JumpTimes solver args f sel atol rtol tol jumpFirst j g r t0 T tEval jSpan x ω []} =ᵐ[expThresholds]
        {ω : ℕ → ℝ | ω 0 ∈ Set.Ioi (r * (T - t0))} := by
      rw [Filter.eventuallyEq_set]
      filter_upwards [hret] with ω ⟨hω, J, hJ⟩
      constructor
      · intro h
        exact (hend hω h).2.1 t0 rfl
      · intro h
        have hlt : r * (T - t0) < ω 0 := h
        obtain ⟨-, -, e3⟩ := hend hω hJ
        have : J = [] := by
          rw [← List.length_eq_zero_iff]
          by_contra hne
          have := e3 0 t0 (by omega) rfl
          linarith
        subst this
        exact hJ
    rw [measure_congr hae, threshold_law 0 measurableSet_Ioi, exp_Ioi]
    exact mul_nonneg hr.le (by linarith)
  · intro u hu hu'
    obtain ⟨q1, q2⟩ := hany 0 u hu'
    have htol0 : 0 ≤ tol := by linarith
    rw [hset, threshold_law 0 measurableSet_Iic, exp_Iic (mul_nonneg hr.le (by linarith))] at q1
    rw [hset, threshold_law 0 measurableSet_Iic] at q2
    have e0 : u + ((0 : ℕ) + 1 : ℝ) * tol - t0 = u + tol - t0 := by push_cast; ring
    rw [e0, exp_Iic (mul_nonneg hr.le (by linarith))] at q2
    exact ⟨q1, q2⟩

/-- **C149.** `C149_law` for `dopri5` and every bounded field whose entry `j` is the constant rate `r`. -/
theorem C149_law_dopri5 (args : A) (f : ℝ → (ι → ℝ) → (ι → ℝ)) (M : ℝ) (hM : ∀ t x i, |f t x i| ≤ M) (j : ι) (r : ℝ)
    (hr : 0 < r) (hf : ∀ t x, f t x j = r) (g : ℝ → (ι → ℝ) → (ι → ℝ)) (hg : ∀ t x, g t x j = 0)
    (x : ι → ℝ) (hx : x j = 0) (t0 T : ℝ) (tEval : List ℝ)
    (hsort : (t0 :: tEval).Pairwise (· ≤ ·)) (hT : (t0 :: tEval).getLast? = some T) (jSpan : ℕ) (hj : 0 < jSpan)
    (atol rtol tol : ℝ) (ha : 0 < atol) (hrt : 0 ≤ rtol)
    (htol : T - t0 ≤ 4096 * tol) (jumpFirst : Bool) (sel : Finset ι) :
    let Jumps := JumpTimes (dopri5Solver (Except PyErr) ℝ (ι → ℝ) A) args f sel atol rtol tol jumpFirst j g r t0 T tEval jSpan x
    (∀ᵐ ω ∂expThresholds, ∃ J, Jumps ω J) ∧
    expThresholds {ω | Jumps ω []} = ENNReal.ofReal (Real.exp (-(r * (T - t0)))) ∧
    (∀ u, t0 ≤ u → u ≤ T →
      ENNReal.ofReal (1 - Real.exp (-(r * (u - t0)))) ≤ expThresholds {ω | ∃ J τ, Jumps ω J ∧ J[0]? = some τ ∧ τ ≤ u} ∧
      expThresholds {ω | ∃ J τ, Jumps ω J ∧ J[0]? = some τ ∧ τ ≤ u} ≤
        ENNReal.ofReal (1 - Real.exp (-(r * (u + tol - t0))))) ∧
    ∀ (k : ℕ) (u : ℝ), u ≤ T →
      expThresholds {ω | t0 + (∑ i ∈ Finset.range (k + 1), ω i) / r ≤ u} ≤
        expThresholds {ω | ∃ J τ, Jumps ω J ∧ J[k]? = some τ ∧ τ ≤ u} ∧
      expThresholds {ω | ∃ J τ, Jumps ω J ∧ J[k]? = some τ ∧ τ ≤ u} ≤
        expThresholds {ω | t0 + (∑ i ∈ Finset.range (k + 1), ω i) / r ≤ u + (k + 1) * tol} := by
  obtain ⟨E, hE⟩ := dopri5_errorLinear (ι := ι) args
  exact C149_law (dopri5_fsalSolver args) E hE (by norm_num [dopri5Solver]) rfl rfl rfl f M hM j r hr
    (dopri5_clockRate f j r hf args) g hg x hx t0 T tEval hsort hT jSpan hj atol rtol tol ha hrt htol jumpFirst sel

/-- **C149.** The same for `tsit5`, the solver of the tutorial: the weights of its tableau add up to `1 - 1.4e-85`, and the law is that
of the rate `ρ`, which differs from `r` by as much. -/
theorem C149_law_tsit5 (args : A) (f : ℝ → (ι → ℝ) → (ι → ℝ)) (M : ℝ) (hM : ∀ t x i, |f t x i| ≤ M) (j : ι) (r : ℝ)
    (hr : 0 < r) (hf : ∀ t x, f t x j = r) (g : ℝ → (ι → ℝ) → (ι → ℝ)) (hg : ∀ t x, g t x j = 0)
    (x : ι → ℝ) (hx : x j = 0) (t0 T : ℝ) (tEval : List ℝ)
    (hsort : (t0 :: tEval).Pairwise (· ≤ ·)) (hT : (t0 :: tEval).getLast? = some T) (jSpan : ℕ) (hj : 0 < jSpan)
    (atol rtol tol : ℝ) (ha : 0 < atol) (hrt : 0 ≤ rtol)
    (htol : T - t0 ≤ 4096 * tol) (jumpFirst : Bool) (sel : Finset ι) : ∃ ρ, |ρ - r| ≤ r / 10 ^ 84 ∧
    let Jumps := JumpTimes (tsit5Solver (Except PyErr) ℝ (ι → ℝ) A) args f sel atol rtol tol jumpFirst j g ρ t0 T tEval jSpan x
    (∀ᵐ ω ∂expThresholds, ∃ J, Jumps ω J) ∧
    expThresholds {ω | Jumps ω []} = ENNReal.ofReal (Real.exp (-(ρ * (T - t0)))) ∧
    (∀ u, t0 ≤ u → u ≤ T →
      ENNReal.ofReal (1 - Real.exp (-(ρ * (u - t0)))) ≤ expThresholds {ω | ∃ J τ, Jumps ω J ∧ J[0]? = some τ ∧ τ ≤ u} ∧
      expThresholds {ω | ∃ J τ, Jumps ω J ∧ J[0]? = some τ ∧ τ ≤ u} ≤
        ENNReal.ofReal (1 - Real.exp (-(ρ * (u + tol - t0))))) ∧
    ∀ (k : ℕ) (u : ℝ), u ≤ T →
      expThresholds {ω | t0 + (∑ i ∈ Finset.range (k + 1), ω i) / ρ ≤ u} ≤
        expThresholds {ω | ∃ J τ, Jumps ω J ∧ J[k]? = some τ ∧ τ ≤ u} ∧
      expThresholds {ω | ∃ J τ, Jumps ω J ∧ J[k]? = some τ ∧ τ ≤ u} ≤
        expThresholds {ω | t0 + (∑ i ∈ Finset.range (k + 1), ω i) / ρ ≤ u + (k + 1) * tol} := by
  obtain ⟨E, hE⟩ := tsit5_errorLinear (ι := ι) args
  have hsum : (constructTsit5 ℝ).bsol.sum = 1 - 14 / 10 ^ 86 := by
    norm_num [constructTsit5, tsit5Bsol]
  have hρ : 0 < (constructTsit5 ℝ).bsol.sum * r := mul_pos (by rw [hsum]; norm_num) hr
  refine ⟨(constructTsit5 ℝ).bsol.sum * r, ?_, ?_⟩
  · rw [hsum, show (1 - 14 / 10 ^ 86 : ℝ) * r - r = -(14 / 10 ^ 86 * r) by ring, abs_neg, abs_of_nonneg (by positivity)]
    rw [div_eq_mul_inv r, mul_comm r]
    exact mul_le_mul_of_nonneg_right (by norm_num) hr.le
  · exact C149_law (tsit5_fsalSolver args) E hE (by norm_num [tsit5Solver]) rfl rfl rfl f M hM j _ hρ
      (tsit5_clockRate f j r hf args) g hg x hx t0 T tEval hsort hT jSpan hj atol rtol tol ha hrt htol jumpFirst sel

/-- A switching system: the first entry moves with the speed `cos x` and changes its sign at random times, twice per unit of time on
average; the second entry is the clock. The probability that it is never switched in a unit of time is `exp (-2)`. -/
example : expThresholds {ω | JumpTimes (dopri5Solver (Except PyErr) ℝ (Fin 2 → ℝ) Unit) () (fun _ x => ![Real.cos (x 0), 2])
    Finset.univ (1 / 1000) (1 / 1000) (1 / 1000) true 1 (fun _ x => ![-x 0, 0]) 2 0 1 [1 / 2, 1] 10 ![1, 0] ω []} =
      ENNReal.ofReal (Real.exp (-2)) := by
  have h := (C149_law_dopri5 (ι := Fin 2) () (fun _ x => ![Real.cos (x 0), 2]) 2
    (by
      intro t x i
      fin_cases i
      · simpa using (Real.abs_cos_le_one (x 0)).trans (by norm_num)
      · simp)
    1 2 (by norm_num) (by simp) (fun _ x => ![-x 0, 0]) (by simp) ![1, 0] (by simp) 0 1 [1 / 2, 1]
    (by norm_num) rfl 10 (by norm_num) (1 / 1000) (1 / 1000) (1 / 1000) (by norm_num) (by norm_num) (by norm_num) true
    Finset.univ).2.1
  rw [h]
  norm_num

/-- The same system with all thresholds equal to `1/2`: the call returns, and the first switch is recorded between the times
`0.249` and `0.25`. -/
example : ∃ J τ, JumpTimes (dopri5Solver (Except PyErr) ℝ (Fin 2 → ℝ) Unit) () (fun _ x => ![Real.cos (x 0), 2])
    Finset.univ (1 / 1000) (1 / 1000) (1 / 1000) true 1 (fun _ x => ![-x 0, 0]) 2 0 1 [1 / 2, 1] 10 ![1, 0] (fun _ => 1 / 2) J ∧
      J[0]? = some τ ∧ 249 / 1000 ≤ τ ∧ τ < 1 / 4 := by
  obtain ⟨E, hE⟩ := dopri5_errorLinear (ι := Fin 2) ()
  have hM : ∀ (t : ℝ) (x : Fin 2 → ℝ) i, |(![Real.cos (x 0), 2] : Fin 2 → ℝ) i| ≤ 2 := by
    intro t x i
    fin_cases i
    · simpa using (Real.abs_cos_le_one (x 0)).trans (by norm_num)
    · simp
  have hc := dopri5_clockRate (A := Unit) (ι := Fin 2) (fun _ x => ![Real.cos (x 0), 2]) 1 2 (by simp) ()
  obtain ⟨fuel, σ, ts, xs, hcall⟩ := C149_returns (dopri5_fsalSolver ()) E hE (by norm_num [dopri5Solver]) rfl rfl rfl
    (fun _ x => ![Real.cos (x 0), 2]) 2 hM 1 2 (by norm_num) hc (fun _ x => ![-x 0, 0]) (by simp) (fun _ => 1 / 2) (by norm_num)
    ![1, 0] (by simp) 0 1 [1 / 2, 1] (by norm_num) rfl 10 (1 / 1000) (1 / 1000) (1 / 1000) (by norm_num) (by norm_num)
    (by norm_num) 5 (by norm_num) true Finset.univ
  obtain ⟨res, hres, hres'⟩ := C149_clock_run (dopri5_fsalSolver ()) (fun _ x => ![Real.cos (x 0), 2]) 1 2 (by norm_num) hc
    (fun _ x => ![-x 0, 0]) (by simp) (fun _ => 1 / 2) (by norm_num) ![1, 0] (by simp) 0 1 [1 / 2, 1] (by norm_num) rfl 10
    (1 / 1000) (1 / 1000) (1 / 1000) (by norm_num) true Finset.univ fuel
  obtain rfl : res = some (σ, ts, xs) := by
    have := hres.symm.trans hcall
    cases this; rfl
  obtain ⟨-, p, J, last, hrun, -, hend⟩ := hres' σ ts xs rfl
  obtain ⟨-, hlt⟩ := hend (by norm_num)
  obtain ⟨i1, i2, -, -⟩ := C149_holding_times hrun
  cases J with
  | nil =>
    simp only [List.getLast?_singleton, Option.some.injEq] at i2
    rw [← i2] at hlt
    norm_num at hlt
  | cons τ J =>
    obtain ⟨k1, k2, k3⟩ := i1 0 0 τ rfl rfl
    exact ⟨τ :: J, τ, ⟨fuel, σ, ts, xs, p, last, hcall, hrun⟩, rfl, by linarith, by linarith⟩

end Torchdyn
