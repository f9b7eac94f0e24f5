import Verif.Model.AdjointFlat
import Verif.Props.QuietStart

/-!
Property C126: what the tolerances of the adjoint solve say about the gradients it computes.
-/

set_option linter.unusedSectionVars false
set_option linter.unusedSimpArgs false

namespace Torchdyn

open Spec Set

variable {ι κ A : Type} [Fintype ι] [Fintype κ]

/-! ### The steps of the adjoint solve -/

@[simp] theorem unpack_packState (a : AdjState (ι → ℝ) (ι → ℝ) (κ → ℝ) ℝ) : unpackState (packState a) = a := rfl

@[simp] theorem pack_unpackState (v : AdjIdx ι κ → ℝ) : packState (unpackState v) = v := by
  funext i
  rcases i with i | i | i | i <;> rfl

/-- The flat field of the adjoint solve. -/
noncomputable def flatAdjoint (F : AdjointField ℝ (ι → ℝ) (ι → ℝ) (κ → ℝ)) (t : ℝ) (v : AdjIdx ι κ → ℝ) : AdjIdx ι κ → ℝ :=
  packState (adjointDynamics F t (unpackState v))

theorem adjointOdeintOn_eq (sel : Finset (AdjIdx ι κ)) (fuel : ℕ) (solver : Solver (Except PyErr) ℝ (AdjIdx ι κ → ℝ) A)
    (atol rtol : ℝ) (args : A) (F : AdjointField ℝ (ι → ℝ) (ι → ℝ) (κ → ℝ)) (a : AdjState (ι → ℝ) (ι → ℝ) (κ → ℝ) ℝ)
    (tSpan : List ℝ) :
    adjointOdeintOn sel fuel solver atol rtol args (fun t A => pure (adjointDynamics F t A)) a tSpan =
      (odeint fuel (pureField (flatAdjoint F)) (packState a) tSpan solver atol rtol false false [] args sel).bind fun r =>
        match r with
        | some (ts, vs) => .ok (ts, vs.map unpackState)
        | none => .error .runtimeError := by
  unfold adjointOdeintOn
  rfl

/-- A step `(t, a) → (t', b)` of the reversed adjoint equations whose error estimate in the entries of `x` and of `λ` is
within the tolerances: root mean square over both of `e_i / (atol + rtol * max(|old|, |new|))`. Nothing is asked of the entries
of `μ` and of the time gradient. -/
def TestedOnStateAndCotangent (solver : Solver (Except PyErr) ℝ (AdjIdx ι κ → ℝ) A) (args : A)
    (F : AdjointField ℝ (ι → ℝ) (ι → ℝ) (κ → ℝ)) (atol rtol : ℝ) (p q : ℝ × AdjState (ι → ℝ) (ι → ℝ) (κ → ℝ) ℝ) : Prop :=
  p.1 < q.1 ∧ ∃ (k e : AdjIdx ι κ → ℝ) (st : List (AdjIdx ι κ → ℝ)),
    solver.step (fun t v => .ok (-(packState (adjointDynamics F (-t) (unpackState v))))) (packState p.2) p.1 (q.1 - p.1) none args
      = .ok (.four k (packState q.2) e st) ∧
    (∑ i, (e (.inl i) / (atol + rtol * max |p.2.1 i| |q.2.1 i|)) ^ 2)
      + (∑ i, (e (.inr (.inl i)) / (atol + rtol * max |p.2.2.1 i| |q.2.2.1 i|)) ^ 2) ≤ 2 * Fintype.card ι

theorem sum_seminormEntries (g : AdjIdx ι κ → ℝ) :
    ∑ i ∈ seminormEntries ι κ, g i = (∑ i, g (.inl i)) + ∑ i, g (.inr (.inl i)) := by
  unfold seminormEntries
  rw [Finset.sum_filter, Fintype.sum_sum_type, Fintype.sum_sum_type]
  simp

theorem card_seminormEntries : ((seminormEntries ι κ).card : ℝ) = 2 * Fintype.card ι := by
  have := sum_seminormEntries (ι := ι) (κ := κ) (fun _ => 1)
  simp at this
  rw [this]
  ring

theorem errorNorm_seminorm_le [Nonempty ι] (atol rtol : ℝ) (x x' e : AdjIdx ι κ → ℝ) :
    errorNorm (seminormEntries ι κ) atol rtol x x' e ≤ 1 ↔
      (∑ i, (e (.inl i) / (atol + rtol * max |x (.inl i)| |x' (.inl i)|)) ^ 2)
        + (∑ i, (e (.inr (.inl i)) / (atol + rtol * max |x (.inr (.inl i))| |x' (.inr (.inl i))|)) ^ 2) ≤ 2 * Fintype.card ι := by
  unfold errorNorm
  have hc : (0 : ℝ) < Fintype.card ι := by exact_mod_cast Fintype.card_pos
  rw [Real.sqrt_le_left zero_le_one, sum_seminormEntries, card_seminormEntries, one_pow, div_le_one (by positivity)]

/-- **C126 (what is tested).** When the adjoint solve over an interval returns, it has gone from the given adjoint state to the
returned one by finitely many steps, and in each of them the error estimates of the state and of the cotangent — and only
these — are within the adjoint tolerances. -/
theorem C126_tested_partial [Nonempty ι] {solver : Solver (Except PyErr) ℝ (AdjIdx ι κ → ℝ) A} {args : A}
    (hs : FsalSolver solver args) (F : AdjointField ℝ (ι → ℝ) (ι → ℝ) (κ → ℝ)) (atol rtol : ℝ) (fuel : ℕ)
    (a : AdjState (ι → ℝ) (ι → ℝ) (κ → ℝ) ℝ) (tHi tLo : ℝ) (hlt : tLo < tHi) (ts : List ℝ)
    (bs : List (AdjState (ι → ℝ) (ι → ℝ) (κ → ℝ) ℝ))
    (h : adjointOdeint fuel solver atol rtol args (fun t A => pure (adjointDynamics F t A)) a [tHi, tLo] = .ok (ts, bs)) :
    ∃ b, bs = [a, b] ∧
      Relation.ReflTransGen (TestedOnStateAndCotangent solver args F atol rtol) (-tHi, a) (-tLo, b) := by
  rw [adjointOdeint, adjointOdeintOn_eq] at h
  cases hr : odeint fuel (pureField (flatAdjoint F)) (packState a) [tHi, tLo] solver atol rtol false false [] args
      (seminormEntries ι κ) with
  | error e => rw [hr] at h; cases h
  | ok r =>
    cases r with
    | none => rw [hr] at h; cases h
    | some r =>
      obtain ⟨ts', vs⟩ := r
      rw [hr] at h
      cases h
      have hdec : [tHi, tLo].Pairwise (· > ·) := by simp [hlt]
      obtain ⟨h1, h2, h3, h4⟩ := C22_accepted_backward hs _ _ tHi tLo [] hdec atol rtol false false (Or.inl rfl) [] _ fuel _ _ hr
      obtain ⟨r', hr', hts⟩ := C21_times_backward hs (flatAdjoint F) (packState a) tHi tLo [] hdec atol rtol false [] (seminormEntries ι κ) fuel
      obtain ⟨e1, e2, e3⟩ := hts ts vs (by rw [hr] at hr'; exact (Except.ok.inj hr').symm)
      subst e1
      match vs, e2, e3 with
      | [v0, v1], _, e3 =>
        cases (show v0 = packState a from Option.some.inj e3)
        refine ⟨unpackState v1, rfl, ?_⟩
        have hreach := h4 0 (-tHi) (packState a) (-tLo) v1 rfl rfl rfl rfl
        have lift : ∀ p q : Point (AdjIdx ι κ), Reached solver args (fun t x => -flatAdjoint F (-t) x) (seminormEntries ι κ) atol rtol p q →
            Relation.ReflTransGen (TestedOnStateAndCotangent solver args F atol rtol) (p.1, unpackState p.2) (q.1, unpackState q.2) := by
          intro p q hpq
          induction hpq with
          | refl => exact Relation.ReflTransGen.refl
          | tail _ hbc ih =>
            refine ih.tail ?_
            obtain ⟨g1, k, e, st, g2, g3⟩ := hbc
            rw [errorNorm_seminorm_le] at g3
            refine ⟨g1, k, e, st, ?_, g3⟩
            simp only [pack_unpackState]
            exact g2
        exact lift _ _ hreach

/-! ### Steps along one direction -/

/-- A step on a field that moves along `u` only, with speed `w t`, as long as the state is on the line `x + ℝu`. -/
theorem rk7_along {ι' : Type} (tab : Tableau ℝ) (g : ℝ → (ι' → ℝ) → (ι' → ℝ)) (x u : ι' → ℝ) (w : ℝ → ℝ) (t d w0 : ℝ) (args : A)
    (h : ∀ s r : ℝ, g s (x + r • u) = w s • u) :
    ∃ st, rk7Step (m := Except PyErr) tab (pureField g) x t d (some (w0 • u)) args = .ok (.four (w (t + nth tab.c 5 * d) • u)
      (x + (d * (nth tab.bsol 0 * w0 + nth tab.bsol 1 * w (t + nth tab.c 0 * d) + nth tab.bsol 2 * w (t + nth tab.c 1 * d)
        + nth tab.bsol 3 * w (t + nth tab.c 2 * d) + nth tab.bsol 4 * w (t + nth tab.c 3 * d)
        + nth tab.bsol 5 * w (t + nth tab.c 4 * d))) • u)
      ((d * (nth tab.berr 0 * w0 + nth tab.berr 1 * w (t + nth tab.c 0 * d) + nth tab.berr 2 * w (t + nth tab.c 1 * d)
        + nth tab.berr 3 * w (t + nth tab.c 2 * d) + nth tab.berr 4 * w (t + nth tab.c 3 * d)
        + nth tab.berr 5 * w (t + nth tab.c 4 * d) + nth tab.berr 6 * w (t + nth tab.c 5 * d))) • u) st) := by
  have h' : ∀ s y, (∃ r : ℝ, y = x + r • u) → g s y = w s • u := by
    rintro s y ⟨r, rfl⟩
    exact h s r
  simp only [rk7Step, firstStage, pureField, bind, Except.bind, pure, Except.pure]
  generalize nth tab.c 0 = c0
  generalize nth tab.c 1 = c1
  generalize nth tab.c 2 = c2
  generalize nth tab.c 3 = c3
  generalize nth tab.c 4 = c4
  generalize nth tab.c 5 = c5
  have a2 := h' (t + c0 * d) (x + (d * nth2 tab.a 0 0) • w0 • u) ⟨(d * nth2 tab.a 0 0) * w0, by module⟩
  simp only [a2]
  generalize w (t + c0 * d) = w1
  have a3 := h' (t + c1 * d) (x + d • (nth2 tab.a 1 0 • w0 • u + nth2 tab.a 1 1 • w1 • u))
    ⟨d * (nth2 tab.a 1 0 * w0 + nth2 tab.a 1 1 * w1), by module⟩
  simp only [a3]
  generalize w (t + c1 * d) = w2
  have a4 := h' (t + c2 * d) (x + (d * nth2 tab.a 2 0) • w0 • u + (d * nth2 tab.a 2 1) • w1 • u + (d * nth2 tab.a 2 2) • w2 • u)
    ⟨(d * nth2 tab.a 2 0) * w0 + (d * nth2 tab.a 2 1) * w1 + (d * nth2 tab.a 2 2) * w2, by module⟩
  simp only [a4]
  generalize w (t + c2 * d) = w3
  have a5 := h' (t + c3 * d) (x + (d * nth2 tab.a 3 0) • w0 • u + (d * nth2 tab.a 3 1) • w1 • u + (d * nth2 tab.a 3 2) • w2 • u
      + (d * nth2 tab.a 3 3) • w3 • u)
    ⟨(d * nth2 tab.a 3 0) * w0 + (d * nth2 tab.a 3 1) * w1 + (d * nth2 tab.a 3 2) * w2 + (d * nth2 tab.a 3 3) * w3, by module⟩
  simp only [a5]
  generalize w (t + c3 * d) = w4
  have a6 := h' (t + c4 * d) (x + (d * nth2 tab.a 4 0) • w0 • u + (d * nth2 tab.a 4 1) • w1 • u + (d * nth2 tab.a 4 2) • w2 • u
      + (d * nth2 tab.a 4 3) • w3 • u + (d * nth2 tab.a 4 4) • w4 • u)
    ⟨(d * nth2 tab.a 4 0) * w0 + (d * nth2 tab.a 4 1) * w1 + (d * nth2 tab.a 4 2) * w2 + (d * nth2 tab.a 4 3) * w3
      + (d * nth2 tab.a 4 4) * w4, by module⟩
  simp only [a6]
  generalize w (t + c4 * d) = w5
  have a7 := h' (t + c5 * d) (x + (d * nth2 tab.a 5 0) • w0 • u + (d * nth2 tab.a 5 1) • w1 • u + (d * nth2 tab.a 5 2) • w2 • u
      + (d * nth2 tab.a 5 3) • w3 • u + (d * nth2 tab.a 5 4) • w4 • u + (d * nth2 tab.a 5 5) • w5 • u)
    ⟨(d * nth2 tab.a 5 0) * w0 + (d * nth2 tab.a 5 1) * w1 + (d * nth2 tab.a 5 2) * w2 + (d * nth2 tab.a 5 3) * w3
      + (d * nth2 tab.a 5 4) * w4 + (d * nth2 tab.a 5 5) * w5, by module⟩
  simp only [a7]
  generalize w (t + c5 * d) = w6
  refine ⟨[w0 • u, w1 • u, w2 • u, w3 • u, w4 • u, w5 • u, w6 • u], congrArg Except.ok ?_⟩
  congr 1
  · module
  · module

/-! ### The witness -/

/-- A smooth bump of height `M` supported in `[61/100, 64/100]`. -/
noncomputable def thinBump (M t : ℝ) : ℝ :=
  M * (Real.smoothTransition ((t - 61 / 100) * 100) * Real.smoothTransition ((64 / 100 - t) * 100))

theorem thinBump_smooth (M : ℝ) : ContDiff ℝ (⊤ : ℕ∞) (thinBump M) := by
  unfold thinBump
  refine contDiff_const.mul (ContDiff.mul ?_ ?_)
  · exact Real.smoothTransition.contDiff.comp (by fun_prop)
  · exact Real.smoothTransition.contDiff.comp (by fun_prop)

theorem thinBump_zero (M t : ℝ) (h : t ≤ 61 / 100 ∨ 64 / 100 ≤ t) : thinBump M t = 0 := by
  unfold thinBump
  rcases h with h | h
  · rw [Real.smoothTransition.zero_of_nonpos (by linarith)]; ring
  · rw [Real.smoothTransition.zero_of_nonpos (x := (64 / 100 - t) * 100) (by linarith)]; ring

theorem thinBump_one (M t : ℝ) (h : 62 / 100 ≤ t) (h' : t ≤ 63 / 100) : thinBump M t = M := by
  unfold thinBump
  rw [Real.smoothTransition.one_of_one_le (by linarith), Real.smoothTransition.one_of_one_le (by linarith)]
  ring

theorem thinBump_nonneg (M t : ℝ) (hM : 0 ≤ M) : 0 ≤ thinBump M t :=
  mul_nonneg hM (mul_nonneg (Real.smoothTransition.nonneg _) (Real.smoothTransition.nonneg _))

theorem thinBump_le (M t : ℝ) (hM : 0 ≤ M) : thinBump M t ≤ M := by
  unfold thinBump
  have h1 := Real.smoothTransition.le_one ((t - 61 / 100) * 100)
  have h2 := Real.smoothTransition.le_one ((64 / 100 - t) * 100)
  have h3 := Real.smoothTransition.nonneg ((64 / 100 - t) * 100)
  have : Real.smoothTransition ((t - 61 / 100) * 100) * Real.smoothTransition ((64 / 100 - t) * 100) ≤ 1 * 1 :=
    mul_le_mul h1 h2 h3 zero_le_one
  nlinarith

theorem thinBump_integral (M : ℝ) (hM : 0 ≤ M) : ∫ t in (0 : ℝ)..1, thinBump M t ≤ 3 / 100 * M := by
  have hc : Continuous (thinBump M) := (thinBump_smooth M).continuous
  have hz : ∀ a b : ℝ, a ≤ b → (∀ t ∈ Icc a b, thinBump M t = 0) → ∫ t in a..b, thinBump M t = 0 := by
    intro a b hab h
    rw [intervalIntegral.integral_congr (g := fun _ => 0)]
    · simp
    · intro t ht
      rw [uIcc_of_le hab] at ht
      exact h t ht
  have h1 := hz 0 (61 / 100) (by norm_num) fun t ht => thinBump_zero M t (Or.inl ht.2)
  have h2 := hz (64 / 100) 1 (by norm_num) fun t ht => thinBump_zero M t (Or.inr ht.1)
  have h3 : ∫ t in (61 / 100 : ℝ)..(64 / 100), thinBump M t ≤ ∫ t in (61 / 100 : ℝ)..(64 / 100), M :=
    intervalIntegral.integral_mono_on (by norm_num) (hc.intervalIntegrable _ _) (by simp) fun t _ => thinBump_le M t hM
  rw [intervalIntegral.integral_const, smul_eq_mul] at h3
  have hi : ∀ a b : ℝ, IntervalIntegrable (thinBump M) MeasureTheory.volume a b := fun a b => hc.intervalIntegrable a b
  rw [← intervalIntegral.integral_add_adjacent_intervals (hi 0 (64 / 100)) (hi _ 1),
    ← intervalIntegral.integral_add_adjacent_intervals (hi 0 (61 / 100)) (hi _ (64 / 100)), h1, h2]
  linarith

/-- The field `x' = θ (φ(t) + x)`. -/
noncomputable def gainField (M : ℝ) (θ : Unit → ℝ) (t : ℝ) (x : Unit → ℝ) : Unit → ℝ := fun _ => θ () * (thinBump M t + x ())

theorem gainField_smooth (M : ℝ) :
    ContDiff ℝ (⊤ : ℕ∞) fun q : (Unit → ℝ) × ℝ × (Unit → ℝ) => gainField M q.1 q.2.1 q.2.2 := by
  unfold gainField
  refine contDiff_pi.2 fun i => ?_
  have h1 : ContDiff ℝ (⊤ : ℕ∞) fun q : (Unit → ℝ) × ℝ × (Unit → ℝ) => thinBump M q.2.1 :=
    (thinBump_smooth M).comp (by fun_prop)
  have h2 : ContDiff ℝ (⊤ : ℕ∞) fun q : (Unit → ℝ) × ℝ × (Unit → ℝ) => q.1 () := by fun_prop
  have h3 : ContDiff ℝ (⊤ : ℕ∞) fun q : (Unit → ℝ) × ℝ × (Unit → ℝ) => q.2.2 () := by fun_prop
  exact h2.mul (h1.add h3)

/-- Its solution from `0`. -/
noncomputable def gainSol (M : ℝ) (θ : Unit → ℝ) (t : ℝ) : Unit → ℝ :=
  fun _ => θ () * (Real.exp (θ () * t) * ∫ s in (0 : ℝ)..t, Real.exp (-(θ () * s)) * thinBump M s)

theorem gainSol_solves (M : ℝ) (θ : Unit → ℝ) (t : ℝ) : HasDerivAt (gainSol M θ) (gainField M θ t (gainSol M θ t)) t := by
  refine hasDerivAt_pi.2 fun i => ?_
  have hc : Continuous fun s => Real.exp (-(θ () * s)) * thinBump M s :=
    Continuous.mul (by fun_prop) (thinBump_smooth M).continuous
  have h1 := (hc.integral_hasStrictDerivAt 0 t).hasDerivAt
  have h2 : HasDerivAt (fun t => Real.exp (θ () * t)) (Real.exp (θ () * t) * (θ () * 1)) t :=
    ((hasDerivAt_id t).const_mul (θ ())).exp
  have h3 := (h2.mul h1).const_mul (θ ())
  refine h3.congr_deriv ?_
  have he : Real.exp (θ () * t) * Real.exp (-(θ () * t)) = 1 := by rw [← Real.exp_add]; simp
  simp only [gainField, gainSol]
  linear_combination (θ () * thinBump M t) * he

theorem gainSol_deriv (M : ℝ) : HasDerivAt (fun c : ℝ => gainSol M (fun _ => c) 1 ()) (∫ t in (0 : ℝ)..1, thinBump M t) 0 := by
  have hcont : Continuous fun c : ℝ => ∫ s in (0 : ℝ)..1, Real.exp (-(c * s)) * thinBump M s := by
    refine intervalIntegral.continuous_parametric_intervalIntegral_of_continuous' ?_ 0 1
    have := (thinBump_smooth M).continuous
    unfold Function.uncurry
    fun_prop
  have hH : Continuous fun c : ℝ => Real.exp (c * 1) * ∫ s in (0 : ℝ)..1, Real.exp (-(c * s)) * thinBump M s :=
    Continuous.mul (by fun_prop) hcont
  have h0 : HasDerivAt (fun c : ℝ => c * (Real.exp (c * 1) * ∫ s in (0 : ℝ)..1, Real.exp (-(c * s)) * thinBump M s))
      (Real.exp (0 * 1) * ∫ s in (0 : ℝ)..1, Real.exp (-(0 * s)) * thinBump M s) 0 := by
    rw [hasDerivAt_iff_tendsto_slope]
    have := (hH.tendsto 0).mono_left (nhdsWithin_le_nhds (s := {0}ᶜ))
    refine this.congr' ?_
    filter_upwards [self_mem_nhdsWithin] with c hc
    have hc' : c ≠ 0 := hc
    simp only [slope, vsub_eq_sub, smul_eq_mul, sub_zero, zero_mul]
    field_simp
  simpa [gainSol] using h0

/-! ### Its adjoint solve -/

/-- The direction of the parameter gradient in the flat vector. -/
def muDir : AdjIdx Unit Unit → ℝ := packState (0, 0, fun _ => 1, 0)

/-- The flat adjoint vector at the final time. -/
def gainStart : AdjIdx Unit Unit → ℝ := packState (fun _ => 0, fun _ => 1, fun _ => 0, 0)

theorem gain_dynamics (M t : ℝ) (a : AdjState (Unit → ℝ) (Unit → ℝ) (Unit → ℝ) ℝ) :
    adjointDynamics (coordAdjoint (gainField M) fun _ => 0) t a
      = (fun _ => 0, fun _ => 0, fun _ => -(a.2.1 () * (thinBump M t + a.1 ())), 0) := by
  have hx : (fun x' : Unit → ℝ => ∑ j, (-a.2.1) j * gainField M (fun _ => 0) t x' j) = fun _ => 0 := by
    funext x'; simp [gainField]
  have ht : (fun s : ℝ => ∑ j, (-a.2.1) j * gainField M (fun _ => 0) s a.1 j) = fun _ => 0 := by
    funext s; simp [gainField]
  have hp : HasFDerivAt (fun θ' : Unit → ℝ => ∑ j, (-a.2.1) j * gainField M θ' t a.1 j)
      ((-(a.2.1 () * (thinBump M t + a.1 ()))) • ContinuousLinearMap.proj (R := ℝ) (φ := fun _ : Unit => ℝ) ()) (fun _ => 0) := by
    have h1 : (fun θ' : Unit → ℝ => ∑ j, (-a.2.1) j * gainField M θ' t a.1 j)
        = ⇑((-(a.2.1 () * (thinBump M t + a.1 ()))) • ContinuousLinearMap.proj (R := ℝ) (φ := fun _ : Unit => ℝ) ()) := by
      funext θ'
      simp [gainField]
      ring
    rw [h1]
    exact ContinuousLinearMap.hasFDerivAt _
  simp only [adjointDynamics, coordAdjoint, hx, ht, hp.fderiv]
  refine Prod.ext ?_ (Prod.ext ?_ (Prod.ext ?_ ?_))
  · funext i; simp [gainField]
  · funext i; simp [fderiv_fun_const]
  · funext i; simp
  · simp

theorem gain_flat (M t r : ℝ) : flatAdjoint (coordAdjoint (gainField M) fun _ => 0) t (gainStart + r • muDir) = (-thinBump M t) • muDir := by
  unfold flatAdjoint
  rw [gain_dynamics]
  funext i
  rcases i with i | i | i | i <;> simp [packState, unpackState, gainStart, muDir]

theorem gain_flat_zero (M t : ℝ) : flatAdjoint (coordAdjoint (gainField M) fun _ => 0) t gainStart = (-thinBump M t) • muDir := by
  have := gain_flat M t 0
  rwa [zero_smul, add_zero] at this

/-- The error ratio of a step whose estimate is in the direction of the parameter gradient only. -/
theorem gain_ratio (atol rtol c r : ℝ) :
    errorRatio (seminormEntries Unit Unit) atol rtol gainStart (gainStart + c • muDir) (r • muDir) = 0 := by
  unfold errorRatio hairerNormOn
  rw [sum_seminormEntries]
  simp [errorScaled, muDir, packState]

/-- The parameter gradient that the solve returns, for a bump of height one. -/
noncomputable def gainMu : ℝ := 888889 / 10 ^ 6 * (500 / 1113)

theorem gain_odeint (M atol rtol : ℝ) (args : A) (fuel : ℕ) :
    odeint (fuel + 8) (pureField (flatAdjoint (coordAdjoint (gainField M) fun _ => 0))) gainStart [1, 0]
      (dopri5Solver (Except PyErr) ℝ (AdjIdx Unit Unit → ℝ) A) atol rtol false false [] args (seminormEntries Unit Unit)
      = .ok (some ([-1, 0], [gainStart, gainStart + (M * gainMu) • muDir])) := by
  set g := flatAdjoint (coordAdjoint (gainField M) fun _ => 0) with hg
  have hk : reverseField (pureField (m := Except PyErr) g) (-1) gainStart = .ok 0 := by
    show Except.ok (-g (-(-1)) gainStart) = _
    rw [hg, gain_flat_zero, thinBump_zero M _ (by norm_num)]
    simp
  have hinit : initStep (m := Except PyErr) (pureField g) 0 gainStart (-1) 5 atol rtol = .ok (1 / 10 ^ 6) :=
    initStep_quiet g gainStart (-1) 5 atol rtol (by
      rw [hg, gain_flat_zero, thinBump_zero M _ (by norm_num)]
      simp)
  have hrun : odeint (fuel + 8) (pureField g) gainStart [1, 0] (dopri5Solver (Except PyErr) ℝ (AdjIdx Unit Unit → ℝ) A) atol rtol
      false false [] args (seminormEntries Unit Unit)
      = adaptiveOdeint (odeintCfg (pureField (fun t x => -g (-t) x)) (dopri5Solver (Except PyErr) ℝ (AdjIdx Unit Unit → ℝ) A) args
          atol rtol (seminormEntries Unit Unit) none false) (fuel + 8) 0 gainStart (1 / 10 ^ 6) [-1, -0] := by
    have hadp : (dopri5Solver (Except PyErr) ℝ (AdjIdx Unit Unit → ℝ) A).adaptive = true := rfl
    simp only [odeint, odeintDirection, getItem, List.getElem?_cons_succ, List.map_cons, List.map_nil,
      List.getElem?_cons_zero, pure_bind, if_pos (zero_lt_one (α := ℝ)), hadp, if_true, hk]
    have hinit' : initStep (m := Except PyErr) (pureField g) 0 gainStart (-1)
        (dopri5Solver (Except PyErr) ℝ (AdjIdx Unit Unit → ℝ) A).order atol rtol = .ok (1 / 10 ^ 6) := hinit
    simp only [bind, Except.bind, hinit']
    rfl
  rw [hrun]
  have hrev : ∀ s r : ℝ, (fun t x => -g (-t) x) s (gainStart + r • muDir) = (thinBump M (-s)) • muDir := by
    intro s r
    simp only [hg, gain_flat]
    rw [neg_smul, neg_neg]
  have hstep : ∀ t d, ∃ st, (odeintCfg (m := Except PyErr) (pureField (fun t x => -g (-t) x))
      (dopri5Solver (Except PyErr) ℝ (AdjIdx Unit Unit → ℝ) A) args atol rtol (seminormEntries Unit Unit) none false).step gainStart t d 0
      = .ok (.four _ _ _ st) := fun t d => by
    have := rk7_along (constructDopri5 ℝ) (fun t x => -g (-t) x) gainStart muDir (fun s => thinBump M (-s)) t d 0 args hrev
    rw [zero_smul] at this
    exact this
  have hquiet : ∀ k < 6, ∃ st, (odeintCfg (m := Except PyErr) (pureField (fun t x => -g (-t) x))
      (dopri5Solver (Except PyErr) ℝ (AdjIdx Unit Unit → ℝ) A) args atol rtol (seminormEntries Unit Unit) none false).step gainStart
        (-1 + (10 ^ k - 1) / (9 * 10 ^ 6)) (10 ^ k / 10 ^ 6) 0 = .ok (.four 0 gainStart 0 st) := by
    intro k hk
    refine ⟨_, rk7_quiet (constructDopri5 ℝ) (fun t x => -g (-t) x) gainStart _ _ args fun i hi => ?_⟩
    have hr := hrev (-1 + (10 ^ k - 1) / (9 * 10 ^ 6) + nth (constructDopri5 ℝ).c i * (10 ^ k / 10 ^ 6)) 0
    rw [zero_smul, add_zero] at hr
    refine hr.trans ?_
    rw [thinBump_zero M _ (Or.inr ?_), zero_smul]
    have hp : (10 : ℝ) ^ k ≤ 10 ^ 5 := pow_le_pow_right₀ (by norm_num) (by omega)
    have h1 : ((10 : ℝ) ^ k - 1) / (9 * 10 ^ 6) ≤ 1 / 10 := by rw [div_le_iff₀ (by norm_num)]; linarith
    have h2 : (10 : ℝ) ^ k / 10 ^ 6 ≤ 1 / 10 := by rw [div_le_iff₀ (by norm_num)]; linarith
    have h3 : 0 ≤ (10 : ℝ) ^ k / 10 ^ 6 := by positivity
    have h4 : nth (constructDopri5 ℝ).c i ≤ 1 := by
      interval_cases i <;> simp [constructDopri5, nth] <;> norm_num
    nlinarith
  obtain ⟨st, hl⟩ := hstep (-1 + 111111 / 10 ^ 6) (888889 / 10 ^ 6)
  have hb : (888889 / 10 ^ 6 : ℝ) * (nth (constructDopri5 ℝ).bsol 0 * 0
      + nth (constructDopri5 ℝ).bsol 1 * thinBump M (-(-1 + 111111 / 10 ^ 6 + nth (constructDopri5 ℝ).c 0 * (888889 / 10 ^ 6)))
      + nth (constructDopri5 ℝ).bsol 2 * thinBump M (-(-1 + 111111 / 10 ^ 6 + nth (constructDopri5 ℝ).c 1 * (888889 / 10 ^ 6)))
      + nth (constructDopri5 ℝ).bsol 3 * thinBump M (-(-1 + 111111 / 10 ^ 6 + nth (constructDopri5 ℝ).c 2 * (888889 / 10 ^ 6)))
      + nth (constructDopri5 ℝ).bsol 4 * thinBump M (-(-1 + 111111 / 10 ^ 6 + nth (constructDopri5 ℝ).c 3 * (888889 / 10 ^ 6)))
      + nth (constructDopri5 ℝ).bsol 5 * thinBump M (-(-1 + 111111 / 10 ^ 6 + nth (constructDopri5 ℝ).c 4 * (888889 / 10 ^ 6))))
      = M * gainMu := by
    simp only [constructDopri5, dopri5Bsol, nth]
    rw [thinBump_zero M _ (Or.inr (by norm_num)), thinBump_one M _ (by norm_num) (by norm_num), thinBump_zero M _ (Or.inl (by norm_num)),
      thinBump_zero M _ (Or.inl (by norm_num)), thinBump_zero M _ (Or.inl (by norm_num))]
    norm_num [gainMu]
    ring
  have herr : errorRatio (seminormEntries Unit Unit) atol rtol gainStart gainStart 0 = 0 := by
    have := gain_ratio atol rtol 0 0
    rwa [zero_smul, add_zero] at this
  have := quiet_run (odeintCfg (m := Except PyErr) (pureField (fun t x => -g (-t) x))
      (dopri5Solver (Except PyErr) ℝ (AdjIdx Unit Unit → ℝ) A) args atol rtol (seminormEntries Unit Unit) none false) rfl rfl
    (fun d => by simp [odeintCfg, adaptStep, dopri5Solver]) gainStart 0 0 herr (-1) hquiet _ _ _ st hl
    (by rw [show (odeintCfg (m := Except PyErr) (pureField (fun t x => -g (-t) x))
      (dopri5Solver (Except PyErr) ℝ (AdjIdx Unit Unit → ℝ) A) args atol rtol (seminormEntries Unit Unit) none false).errRatio
        = errorRatio (seminormEntries Unit Unit) atol rtol from rfl, gain_ratio]; norm_num) fuel
  rw [hb] at this
  rw [show (-0 : ℝ) = -1 + 1 by norm_num, this]
  norm_num

theorem gain_solve (M atol rtol : ℝ) (args : A) (fuel : ℕ) :
    adjointOdeint (fuel + 8) (dopri5Solver (Except PyErr) ℝ (AdjIdx Unit Unit → ℝ) A) atol rtol args
      (fun t a => pure (adjointDynamics (coordAdjoint (gainField M) fun _ => 0) t a)) (fun _ => 0, fun _ => 1, 0, 0) [1, 0]
      = .ok ([-1, 0], [(fun _ => 0, fun _ => 1, fun _ => 0, 0), (fun _ => 0, fun _ => 1, fun _ => M * gainMu, 0)]) := by
  have hs : adjointOdeint (fuel + 8) (dopri5Solver (Except PyErr) ℝ (AdjIdx Unit Unit → ℝ) A) atol rtol args
      (fun t a => pure (adjointDynamics (coordAdjoint (gainField M) fun _ => 0) t a)) (fun _ => 0, fun _ => 1, 0, 0) [1, 0]
      = .ok ([-1, 0], [unpackState gainStart, unpackState (gainStart + (M * gainMu) • muDir)]) := by
    have := gain_odeint M atol rtol args fuel
    rw [adjointOdeint, adjointOdeintOn_eq]
    rw [show packState ((fun _ => 0, fun _ => 1, 0, 0) : AdjState (Unit → ℝ) (Unit → ℝ) (Unit → ℝ) ℝ) = gainStart from rfl, this]
    rfl
  have hu : unpackState (gainStart + (M * gainMu) • muDir) = (fun _ => 0, fun _ => 1, fun _ => M * gainMu, 0) := by
    refine Prod.ext ?_ (Prod.ext ?_ (Prod.ext ?_ ?_))
    · funext i; simp [unpackState, gainStart, muDir, packState]
    · funext i; simp [unpackState, gainStart, muDir, packState]
    · funext i; simp [unpackState, gainStart, muDir, packState]
    · simp [unpackState, gainStart, muDir, packState]
  rw [hu] at hs
  exact hs

/-- A case that meets the hypotheses of `C126_tested_partial`. -/
example : ∃ ts bs, adjointOdeint 8 (dopri5Solver (Except PyErr) ℝ (AdjIdx Unit Unit → ℝ) Unit) (1 / 1000) (1 / 1000) ()
    (fun t a => pure (adjointDynamics (coordAdjoint (gainField 10) fun _ => 0) t a)) (fun _ => 0, fun _ => 1, 0, 0) [1, 0]
      = .ok (ts, bs) := ⟨_, _, gain_solve 10 (1 / 1000) (1 / 1000) () 0⟩

theorem gain_backward (M atol rtol : ℝ) (args : A) (fuel : ℕ) :
    adjointBackward (adjointOdeint (fuel + 8) (dopri5Solver (Except PyErr) ℝ (AdjIdx Unit Unit → ℝ) A) atol rtol args)
      (coordAdjoint (gainField M) fun _ => 0) [0, 1] [fun _ => 0, fun _ => 0] [0, 0] [fun _ => 0, fun _ => 1]
      = .ok (fun _ => M * gainMu, fun _ => 1, 0, 0) := by
  have hp : ∀ (l x : Unit → ℝ) (t : ℝ), (coordAdjoint (gainField M) fun _ => 0).pair l ((coordAdjoint (gainField M) fun _ => 0).vf t x) = 0 := by
    intro l x t
    simp [coordAdjoint, gainField]
  have hs := gain_solve M atol rtol args fuel
  unfold adjointBackward
  simp only [getLastItem, List.getLast?_cons_cons, List.getLast?_singleton, bind, Except.bind, pure, Except.pure, hp,
    List.length_cons, List.length_nil, zero_add, Nat.add_sub_cancel, adjointLoop, getItem, List.getElem?_cons_succ,
    List.getElem?_cons_zero]
  have hs' := hs
  simp only [pure, Except.pure] at hs'
  rw [hs']
  simp only [List.getLast?_cons_cons, List.getLast?_singleton, hp]
  congr 2
  refine Prod.ext ?_ rfl
  funext i
  simp

/-- **C126, refuted (adjoint tolerances and the parameter gradient).** However large `E`, there are a smooth field
`f θ t x` with one parameter and one state, the family `Y θ` of its solutions from `0` on `[0, 1]`, and the derivative `L'` of
the final state with respect to the parameter at `θ = 0`, such that `backward` with `solver_adjoint = dopri5` returns, for the
loss "final state" and for **all** positive adjoint tolerances at once, a parameter gradient that is wrong by at least `E` —
although the stored solution is exact and the cotangent it returns is the exact one. The step that misses the gradient is
accepted because the error test looks at `x` and `λ` only. -/
theorem C126_parameter_gradient_refuted (E : ℝ) :
    ∃ (f : (Unit → ℝ) → ℝ → (Unit → ℝ) → (Unit → ℝ)) (Y : (Unit → ℝ) → ℝ → (Unit → ℝ)) (L' μ : ℝ),
      (ContDiff ℝ (⊤ : ℕ∞) fun q : (Unit → ℝ) × ℝ × (Unit → ℝ) => f q.1 q.2.1 q.2.2) ∧
      (∀ θ, Y θ 0 = fun _ => 0) ∧ (∀ θ t, HasDerivAt (Y θ) (f θ t (Y θ t)) t) ∧
      HasDerivAt (fun c : ℝ => Y (fun _ => c) 1 ()) L' 0 ∧
      (∀ (A : Type) (args : A) (atol rtol : ℝ), 0 < atol → 0 ≤ rtol → ∀ fuel, 8 ≤ fuel →
        adjointBackward (adjointOdeint fuel (dopri5Solver (Except PyErr) ℝ (AdjIdx Unit Unit → ℝ) A) atol rtol args)
          (coordAdjoint f fun _ => 0) [0, 1] [Y (fun _ => 0) 0, Y (fun _ => 0) 1] [0, 0] [fun _ => 0, fun _ => 1]
          = .ok (fun _ => μ, fun _ => 1, 0, 0)) ∧
      E ≤ |μ - L'| := by
  have hY : ∀ t, gainSol (3 * max E 0) (fun _ => 0) t = fun _ => 0 := fun t => by funext i; simp [gainSol]
  refine ⟨gainField (3 * max E 0), gainSol (3 * max E 0), ∫ t in (0 : ℝ)..1, thinBump (3 * max E 0) t, 3 * max E 0 * gainMu,
    gainField_smooth _, fun θ => by funext i; simp [gainSol], gainSol_solves _, gainSol_deriv _, ?_, ?_⟩
  · intro A args atol rtol _ _ fuel hf
    obtain ⟨n, rfl⟩ := Nat.exists_eq_add_of_le hf
    rw [add_comm 8 n, hY, hY]
    exact gain_backward _ atol rtol args n
  · have h := thinBump_integral (3 * max E 0) (by positivity)
    have hE := le_max_left E 0
    have hE0 := le_max_right E 0
    refine le_trans ?_ (le_abs_self _)
    have : gainMu = 888889 / 10 ^ 6 * (500 / 1113) := rfl
    rw [this]
    nlinarith

theorem full_norm_gain (atol rtol c r : ℝ) :
    errorNorm Finset.univ atol rtol gainStart (gainStart + c • muDir) (r • muDir) ≤ 1 ↔ (r / (atol + rtol * |c|)) ^ 2 ≤ 4 := by
  unfold errorNorm
  rw [Real.sqrt_le_left zero_le_one, Fintype.sum_sum_type, Fintype.sum_sum_type, Fintype.sum_sum_type]
  simp [muDir, gainStart, packState]
  rw [div_le_one (by norm_num)]

/-- **C126 (the step is one that an ordinary error test refuses).** In the run of the previous theorem, for a bump of height
ten, the last step of the adjoint solve does not pass the test when all entries count, for all tolerances up to the default
`1e-3`. -/
theorem C126_full_norm_rejects (args : A) (atol rtol : ℝ) (ha : 0 < atol) (ha' : atol ≤ 1 / 1000) (hr : 0 ≤ rtol)
    (hr' : rtol ≤ 1 / 1000) (b : AdjIdx Unit Unit → ℝ) :
    ¬ AcceptedStep (dopri5Solver (Except PyErr) ℝ (AdjIdx Unit Unit → ℝ) A) args
      (fun t v => -flatAdjoint (coordAdjoint (gainField 10) fun _ => 0) (-t) v) Finset.univ atol rtol
      (-1 + 111111 / 10 ^ 6, gainStart) (0, b) := by
  rintro ⟨_, k, e, st, hstep, hle⟩
  have hrev : ∀ s r : ℝ, (fun t x => -flatAdjoint (coordAdjoint (gainField 10) fun _ => 0) (-t) x) s (gainStart + r • muDir)
      = (thinBump 10 (-s)) • muDir := by
    intro s r
    simp only [gain_flat]
    rw [neg_smul, neg_neg]
  obtain ⟨st', hal⟩ := rk7_along (constructDopri5 ℝ) (fun t x => -flatAdjoint (coordAdjoint (gainField 10) fun _ => 0) (-t) x) gainStart muDir
    (fun s => thinBump 10 (-s)) (-1 + 111111 / 10 ^ 6) (888889 / 10 ^ 6) 0 args hrev
  have hk0 : -flatAdjoint (coordAdjoint (gainField 10) fun _ => 0) (-(-1 + 111111 / 10 ^ 6)) gainStart = (0 : ℝ) • muDir := by
    have := hrev (-1 + 111111 / 10 ^ 6) 0
    rw [zero_smul, add_zero, thinBump_zero 10 _ (by norm_num)] at this
    exact this
  have hfirst := (dopri5_fsalSolver (ι := AdjIdx Unit Unit) args).first_stage
    (fun t x => -flatAdjoint (coordAdjoint (gainField 10) fun _ => 0) (-t) x) gainStart (-1 + 111111 / 10 ^ 6) (888889 / 10 ^ 6)
  rw [hk0] at hfirst
  rw [show ((0 : ℝ), b).1 - ((-1 + 111111 / 10 ^ 6 : ℝ), gainStart).1 = 888889 / 10 ^ 6 by norm_num] at hstep
  have hall := (hfirst.trans hstep).symm.trans hal
  obtain ⟨-, hb, he, -⟩ := StepOut.four.inj (Except.ok.inj hall)
  simp only at hb he
  subst hb
  subst he
  have hle' := (full_norm_gain atol rtol _ _).1 hle
  simp only [constructDopri5, dopri5Bsol, dopri5Bhat, List.zipWith_cons_cons, List.zipWith_nil_left, nth] at hle'
  rw [thinBump_zero 10 _ (Or.inr (by norm_num)), thinBump_one 10 _ (by norm_num) (by norm_num), thinBump_zero 10 _ (Or.inl (by norm_num)),
      thinBump_zero 10 _ (Or.inl (by norm_num)), thinBump_zero 10 _ (Or.inl (by norm_num))] at hle'
  norm_num at hle'
  rw [thinBump_zero 10 0 (by norm_num)] at hle'
  have hpos : 0 < atol + rtol * (888889 / 222600) := by positivity
  rw [div_pow, div_le_iff₀ (by positivity)] at hle'
  have hup : atol + rtol * (888889 / 222600) ≤ 1 / 1000 + 1 / 1000 * (888889 / 222600) := by nlinarith
  have hsq := pow_le_pow_left₀ hpos.le hup 2
  norm_num at hle' hsq
  linarith

end Torchdyn
