import Verif.Props.Symmetry
import Verif.Props.QuietStart

/-!
Property C133: integration does not depend on the units in which state and time are measured.
-/

set_option linter.unusedSectionVars false
set_option linter.unusedSimpArgs false

namespace Torchdyn

open Spec

/-! ### Units of the state -/

section state

variable {ι A : Type} [Fintype ι]

/-- Measuring entry `i` in other units: multiplication by `d i`. -/
def inUnits (d : ι → ℝ) : (ι → ℝ) →ₗ[ℝ] (ι → ℝ) where
  toFun x i := d i * x i
  map_add' x y := by funext i; simp only [Pi.add_apply, mul_add]
  map_smul' c x := by funext i; simp only [Pi.smul_apply, smul_eq_mul, RingHom.id_apply]; ring

theorem div_units (s c v w : ℝ) (hs : 0 < s) (hc : |c| = s) : |c * v / (s * w)| = |v / w| := by
  rw [abs_div, abs_mul, abs_mul, hc, abs_of_pos hs, mul_div_mul_left _ _ hs.ne', ← abs_div]

theorem hairerNormOn_congr_abs (sel : Finset ι) (u v : ι → ℝ) (h : ∀ i, |u i| = |v i|) :
    hairerNormOn sel u = hairerNormOn sel v := by
  unfold hairerNormOn
  simp only [h]

theorem scale_units (d : ι → ℝ) (s : ℝ) (hs : 0 < s) (hd : ∀ i, |d i| = s) (atol rtol : ℝ) (x u : ι → ℝ) (i : ι) :
    |d i * u i / (s * atol + |d i * x i| * rtol)| = |u i / (atol + |x i| * rtol)| := by
  have e : s * atol + |d i * x i| * rtol = s * (atol + |x i| * rtol) := by rw [abs_mul, hd]; ring
  rw [e, div_units s _ _ _ hs (hd i)]

theorem initStep_units (d : ι → ℝ) (s : ℝ) (hs : 0 < s) (hd : ∀ i, |d i| = s) (f g : ℝ → (ι → ℝ) → (ι → ℝ))
    (hfg : ∀ t x, g t (inUnits d x) = inUnits d (f t x)) (f0 x0 : ι → ℝ) (t0 : ℝ) (order : ℕ) (atol rtol : ℝ) :
    initStep (m := Except PyErr) (pureField g) (inUnits d f0) (inUnits d x0) t0 order (s * atol) rtol =
      initStep (m := Except PyErr) (pureField f) f0 x0 t0 order atol rtol := by
  have e : ∀ u : ι → ℝ, hairerNorm (fun i => inUnits d u i / (s * atol + |inUnits d x0 i| * rtol)) =
      hairerNorm (fun i => u i / (atol + |x0 i| * rtol)) :=
    fun u => hairerNormOn_congr_abs _ _ _ fun i => scale_units d s hs hd atol rtol x0 u i
  have e2 : ∀ h0 : ℝ, g (t0 + h0) (fun i => inUnits d x0 i + h0 * inUnits d f0 i) =
      inUnits d (f (t0 + h0) (fun i => x0 i + h0 * f0 i)) := fun h0 => by
    rw [← hfg]
    congr 1
    funext i
    simp only [inUnits, LinearMap.coe_mk, AddHom.coe_mk]
    ring
  have e3 : ∀ u : ι → ℝ, hairerNorm (fun i => (inUnits d u i - inUnits d f0 i) / (s * atol + |inUnits d x0 i| * rtol)) =
      hairerNorm (fun i => (u i - f0 i) / (atol + |x0 i| * rtol)) := fun u => by
    rw [← e (fun i => u i - f0 i)]
    congr 1
    funext i
    simp only [inUnits, LinearMap.coe_mk, AddHom.coe_mk]
    rw [mul_sub]
  simp only [initStep, pureField, bind, Except.bind, pure, Except.pure, e, e2, e3]

theorem errorRatio_units (d : ι → ℝ) (s : ℝ) (hs : 0 < s) (hd : ∀ i, |d i| = s) (sel : Finset ι) (atol rtol : ℝ)
    (x x' e : ι → ℝ) :
    errorRatio sel (s * atol) rtol (inUnits d x) (inUnits d x') (inUnits d e) = errorRatio sel atol rtol x x' e := by
  refine hairerNormOn_congr_abs _ _ _ fun i => ?_
  simp only [errorScaled, inUnits, LinearMap.coe_mk, AddHom.coe_mk]
  have : s * atol + rtol * max |d i * x i| |d i * x' i| = s * (atol + rtol * max |x i| |x' i|) := by
    rw [abs_mul, abs_mul, hd, ← mul_max_of_nonneg _ _ hs.le]; ring
  rw [this, div_units s _ _ _ hs (hd i)]

theorem cfg_units (tsit : Bool) (d : ι → ℝ) (s : ℝ) (hs : 0 < s) (hd : ∀ i, |d i| = s) (f g : ℝ → (ι → ℝ) → (ι → ℝ))
    (hfg : ∀ t x, g t (inUnits d x) = inUnits d (f t x)) (args : A) (atol rtol : ℝ) (sel : Finset ι) (ui rae : Bool) :
    CfgMap (inUnits d)
      (odeintCfg (pureField f) (libSolver tsit ι A) args atol rtol sel (odeintInterp (libSolver tsit ι A) ui) rae)
      (odeintCfg (pureField g) (libSolver tsit ι A) args (s * atol) rtol sel (odeintInterp (libSolver tsit ι A) ui) rae) := by
  refine ⟨?_, ?_, rfl, rfl, ?_⟩
  · exact fun x t dt k => libSolver_step tsit (inUnits d) f g (fun t x => (hfg t x).symm) x t dt k args
  · exact fun x x' e => errorRatio_units d s hs hd sel atol rtol x x' e
  · cases tsit with
    | true => exact Or.inl ⟨rfl, rfl⟩
    | false =>
      cases ui with
      | false => exact Or.inl ⟨rfl, rfl⟩
      | true => exact Or.inr ⟨_, _, rfl, rfl, fun t dt k k' x x' st tq => dense_map _ _ _ _ _ _ _ _ _ _⟩

/-- **C133**, units of the state, adaptive solvers. Measure the state in units `s` times smaller (and change the sign of any of
its entries): all entries are multiplied by `d i` with `|d i| = s`, the field `g` is `f` in the new units, and `atol`, which has
the unit of the state, is multiplied by `s`. Then `odeint` with `dopri5` or `tsit5`, on every grid in either direction, for
every setting, takes the same steps, raises the same errors, and returns the same times and the old states in the new units. -/
theorem C133_state_units (tsit : Bool) (d : ι → ℝ) (s : ℝ) (hs : 0 < s) (hd : ∀ i, |d i| = s)
    (f g : ℝ → (ι → ℝ) → (ι → ℝ)) (hfg : ∀ t x, g t (fun i => d i * x i) = fun i => d i * f t x i)
    (x : ι → ℝ) (tSpan : List ℝ) (atol rtol : ℝ) (ui rae : Bool) (saveAt : List ℝ) (args : A) (sel : Finset ι) (fuel : ℕ) :
    odeint fuel (pureField g) (fun i => d i * x i) tSpan (libSolver tsit ι A) (s * atol) rtol ui rae saveAt args sel =
      (odeint fuel (pureField f) x tSpan (libSolver tsit ι A) atol rtol ui rae saveAt args sel).map
        (Option.map fun r => (r.1, r.2.map fun y i => d i * y i)) := by
  have hfg' : ∀ t x, g t (inUnits d x) = inUnits d (f t x) := hfg
  change odeint fuel (pureField g) (inUnits d x) tSpan (libSolver tsit ι A) (s * atol) rtol ui rae saveAt args sel =
      (odeint fuel (pureField f) x tSpan (libSolver tsit ι A) atol rtol ui rae saveAt args sel).map
        (Option.map fun r => (r.1, r.2.map (inUnits d)))
  have ha : (libSolver tsit ι A).adaptive = true := by cases tsit <;> rfl
  match tSpan with
  | [] => rfl
  | [_] => rfl
  | t0 :: t1 :: rest =>
    rcases le_or_gt t0 t1 with h | h
    · obtain ⟨d1, -, hi1, e1⟩ := odeint_forward fuel g (inUnits d x) rest (libSolver tsit ι A) ha (s * atol) rtol ui rae
        saveAt args sel h
      obtain ⟨d2, -, hi2, e2⟩ := odeint_forward fuel f x rest (libSolver tsit ι A) ha atol rtol ui rae saveAt args sel h
      rw [hfg', initStep_units d s hs hd f g hfg', hi2] at hi1
      have hd12 : d2 = d1 := Except.ok.inj hi1
      rw [e1, e2, hfg', ← hd12]
      exact (cfg_units tsit d s hs hd f g hfg' args atol rtol sel ui rae).odeint fuel (f t0 x) x d2 _
    · obtain ⟨dt, hdt, hi⟩ := initStep_pos f (-f (-(-t0)) x) x (-t0) (libSolver tsit ι A).order atol rtol
      have hneg : ∀ y : ι → ℝ, -inUnits d y = inUnits d (-y) := fun y => (map_neg (inUnits d) y).symm
      have hi' : initStep (m := Except PyErr) (pureField g) (-g (-(-t0)) (inUnits d x)) (inUnits d x) (-t0)
          (libSolver tsit ι A).order (s * atol) rtol = .ok dt := by
        rw [hfg', hneg]
        exact (initStep_units d s hs hd f g hfg' (-f (-(-t0)) x) x (-t0) _ atol rtol).trans hi
      have key : ∀ (F : ℝ → (ι → ℝ) → (ι → ℝ)) (y : ι → ℝ) (at' : ℝ)
          (hF : initStep (m := Except PyErr) (pureField F) (-F (-(-t0)) y) y (-t0) (libSolver tsit ι A).order at' rtol = .ok dt),
          odeint fuel (pureField F) y (t0 :: t1 :: rest) (libSolver tsit ι A) at' rtol ui rae saveAt args sel =
          adaptiveOdeint (odeintCfg (pureField (fun t x => -F (-t) x)) (libSolver tsit ι A) args at' rtol sel
            (odeintInterp (libSolver tsit ι A) ui) rae) fuel (-F (-(-t0)) y) y dt ((t0 :: t1 :: rest).map (fun t => -t)) := by
        intro F y at' hF
        have hk : reverseField (pureField (m := Except PyErr) F) (-t0) y = .ok (-F (-(-t0)) y) := rfl
        simp only [odeint, odeintDirection, getItem, List.getElem?_cons_succ, List.map_cons,
          List.getElem?_cons_zero, pure_bind, if_pos h, ha, if_true, hk]
        simp only [bind, Except.bind, hF]
        rfl
      rw [key g _ _ hi', key f _ _ hi, hfg', hneg]
      exact (cfg_units tsit d s hs hd (fun t x => -f (-t) x) (fun t x => -g (-t) x)
        (fun t x => by rw [hfg', hneg]) args atol rtol sel ui rae).odeint fuel (-f (-(-t0)) x) x dt _

/-- Non-vacuity of `C133_state_units`: from metres to millimetres with the direction of the second axis reversed, for the
field `x' = (y, -x y)`. -/
example : let d : Fin 2 → ℝ := ![1000, -1000]
    (∀ i, |d i| = 1000) ∧
      ∀ (t : ℝ) (x : Fin 2 → ℝ), (fun (_ : ℝ) (x : Fin 2 → ℝ) => ![-x 1, -(x 0 * x 1) / 1000]) t (fun i => d i * x i) =
        fun i => d i * (![x 1, -(x 0 * x 1)] : Fin 2 → ℝ) i := by
  intro d
  refine ⟨fun i => by fin_cases i <;> simp [d], fun t x => ?_⟩
  funext i
  fin_cases i <;> simp [d] <;> ring

/-- **C133 is false** when the entries are measured in different units, here one of two entries in units a thousand times
smaller: `atol` is one number for all entries, and no other value of it, `atol'`, makes the solver accept in the new units the
steps that it accepts in the old ones. -/
theorem C133_entry_units_refuted (atol rtol atol' : ℝ) (ha : 0 < atol) (ha' : 0 < atol') :
    ∃ x x' e : Fin 2 → ℝ,
      ¬ (errorRatio Finset.univ atol' rtol (inUnits ![1, 1000] x) (inUnits ![1, 1000] x') (inUnits ![1, 1000] e) ≤ 1 ↔
        errorRatio Finset.univ atol rtol x x' e ≤ 1) := by
  have key : ∀ b : ℝ, 0 < b → ∀ v : Fin 2 → ℝ, errorRatio Finset.univ b rtol 0 0 v ≤ 1 ↔ (v 0 ^ 2 + v 1 ^ 2) ≤ 2 * b ^ 2 := by
    intro b hb v
    have : (∑ i : Fin 2, |errorScaled b rtol 0 0 v i| ^ 2) / ((Finset.univ : Finset (Fin 2)).card : ℝ) =
        (v 0 ^ 2 + v 1 ^ 2) / (2 * b ^ 2) := by
      simp only [errorScaled, Fin.sum_univ_two, Pi.zero_apply, abs_zero, max_self, mul_zero, add_zero, sq_abs,
        Finset.card_univ, Fintype.card_fin]
      field_simp
      norm_num
    rw [errorRatio, hairerNormOn, this, Real.sqrt_le_iff, div_le_iff₀ (by positivity)]
    simp
  have hz : inUnits (![1, 1000] : Fin 2 → ℝ) 0 = 0 := map_zero _
  rcases lt_or_ge atol' (700 * atol) with h | h
  · refine ⟨0, 0, ![0, atol], ?_⟩
    rw [hz, key _ ha', key _ ha]
    simp only [inUnits, LinearMap.coe_mk, AddHom.coe_mk, Matrix.cons_val_zero, Matrix.cons_val_one]
    rw [iff_comm, iff_true_left (by nlinarith)]
    nlinarith
  · refine ⟨0, 0, ![2 * atol, 0], ?_⟩
    rw [hz, key _ ha', key _ ha]
    simp only [inUnits, LinearMap.coe_mk, AddHom.coe_mk, Matrix.cons_val_zero, Matrix.cons_val_one]
    rw [iff_true_left (by nlinarith)]
    nlinarith

end state

/-! ### Units of time -/

section time

theorem gridStates_timeUnits {K V : Type} [Field K] (φ φ' : V → K → K → V) (c : K)
    (h : ∀ x t dt, φ' x (c * t) (c * dt) = φ x t dt) (ts : List K) : ∀ x,
    gridStates φ' x (ts.map (c * ·)) = gridStates φ x ts := by
  induction ts with
  | nil => intro x; rfl
  | cons t ts ih =>
    intro x
    cases ts with
    | nil => rfl
    | cons t' ts =>
      simp only [List.map_cons, gridStates, ← mul_sub, h]
      congr 1
      exact ih _

/-- **C133**, units of time, fixed-step solvers: measuring time in units `c` times smaller — `t_span` is multiplied by `c > 0`,
the field is `f(t / c, x) / c` — gives the same states at the times multiplied by `c`. -/
theorem C133_time_units_partial {K V A : Type} [Field K] [LinearOrder K] [IsStrictOrderedRing K] [AddCommGroup V] [Module K V]
    (f : K → V → V) (c : K) (hc : 0 < c) (x : V) (t0 t1 : K) (rest : List K) (hd : t0 ≤ t1)
    (hsep : Separated (t0 :: t1 :: rest)) (hsep' : Separated ((t0 :: t1 :: rest).map (c * ·))) (args : A)
    (solver : Solver (Except PyErr) K V A)
    (hsolver : solver = eulerSolver (Except PyErr) K V A ∨ solver = midpointSolver (Except PyErr) K V A ∨
      solver = rk4Solver (Except PyErr) K V A) :
    odeintFixed (pureField (fun t x => c⁻¹ • f (c⁻¹ * t) x)) x ((t0 :: t1 :: rest).map (c * ·)) solver [] args =
      (odeintFixed (pureField f) x (t0 :: t1 :: rest) solver [] args).map (fun r => (r.1.map (c * ·), r.2)) := by
  have key : ∀ φ φ' : V → K → K → V, SteppedBy solver f args φ →
      SteppedBy solver (fun t x => c⁻¹ • f (c⁻¹ * t) x) args φ' → (∀ x t dt, φ' x (c * t) (c * dt) = φ x t dt) →
      odeintFixed (pureField (fun t x => c⁻¹ • f (c⁻¹ * t) x)) x ((t0 :: t1 :: rest).map (c * ·)) solver [] args =
      (odeintFixed (pureField f) x (t0 :: t1 :: rest) solver [] args).map (fun r => (r.1.map (c * ·), r.2)) := by
    intro φ φ' h h' hφ
    have e1 := odeintFixed_forward (f := f) (solver := solver) (args := args) x rest [] hd
    have e2 := odeintFixed_forward (f := fun t x => c⁻¹ • f (c⁻¹ * t) x) (solver := solver) (args := args) x
      (rest.map (c * ·)) [] (mul_le_mul_of_nonneg_left hd hc.le)
    rw [fixedOdeint_default _ (pure ()) φ h.tick x _ (by simp) hsep, tickN_pure] at e1
    rw [List.map_cons, List.map_cons] at hsep'
    rw [fixedOdeint_default _ (pure ()) φ' h'.tick x _ (by simp) hsep', tickN_pure] at e2
    have e3 := gridStates_timeUnits φ φ' c hφ (t0 :: t1 :: rest) x
    rw [List.map_cons, List.map_cons] at e3 ⊢
    rw [e1, e2, e3]
    rfl
  have h1 : ∀ t : K, c⁻¹ * (c * t) = t := fun t => inv_mul_cancel_left₀ hc.ne' t
  have h2 : ∀ t a dt : K, c⁻¹ * (c * t + a * (c * dt)) = t + a * dt := fun t a dt => by
    rw [mul_add, h1, mul_left_comm a, h1]
  have h3 : ∀ (a dt : K) (v : V), (a * (c * dt)) • c⁻¹ • v = (a * dt) • v := fun a dt v => by
    rw [smul_smul]; congr 1; field_simp
  have h4 : ∀ (dt : K) (v : V), (c * dt) • c⁻¹ • v = dt • v := fun dt v => by
    rw [smul_smul]; congr 1; field_simp
  rcases hsolver with rfl | rfl | rfl
  · exact key _ _ (euler_steppedBy f args) (euler_steppedBy _ args) (fun x t dt => by simp only [h1, h4])
  · exact key _ _ (midpoint_steppedBy f args) (midpoint_steppedBy _ args) (fun x t dt => by
      simp only [h1, h2, h3, h4])
  · refine key _ _ (rk4_steppedBy f args) (rk4_steppedBy _ args) (fun x t dt => ?_)
    have h5 : ∀ (a : K) (v : V), a • c⁻¹ • v = c⁻¹ • a • v := fun a v => smul_comm _ _ _
    simp only [rk4Update, rk4Step, firstStage, pureField, Id.run, bind, pure, h1, h2, h5, ← smul_add]
    have h6 : ∀ v : V, c⁻¹ • (c * dt) • v = dt • v := fun v => by rw [smul_smul, inv_mul_cancel_left₀ hc.ne']
    simp only [h6]

/-- Non-vacuity of `C133_time_units_partial`: from seconds to milliseconds. -/
example : Separated ([0, 1, 3] : List ℚ) ∧ Separated (([0, 1, 3] : List ℚ).map (1000 * ·)) := by
  constructor <;> rw [← assert_iff_separated] <;> decide +kernel

/-- A smooth bump of height `M` that vanishes before `1/2` and after `4/5`. -/
noncomputable def lateBump (M t : ℝ) : ℝ :=
  M * (Real.smoothTransition ((t - 1 / 2) * 20) * Real.smoothTransition ((4 / 5 - t) * 10))

theorem lateBump_smooth (M : ℝ) : ContDiff ℝ (⊤ : ℕ∞) (lateBump M) := by
  unfold lateBump
  refine contDiff_const.mul (ContDiff.mul ?_ ?_)
  · exact Real.smoothTransition.contDiff.comp (by fun_prop)
  · exact Real.smoothTransition.contDiff.comp (by fun_prop)

theorem lateBump_zero (M t : ℝ) (h : t ≤ 1 / 2 ∨ 4 / 5 ≤ t) : lateBump M t = 0 := by
  unfold lateBump
  rcases h with h | h
  · rw [Real.smoothTransition.zero_of_nonpos (by linarith)]; ring
  · rw [Real.smoothTransition.zero_of_nonpos (x := (4 / 5 - t) * 10) (by linarith)]; ring

theorem lateBump_one (M t : ℝ) (h : 11 / 20 ≤ t) (h' : t ≤ 7 / 10) : lateBump M t = M := by
  unfold lateBump
  rw [Real.smoothTransition.one_of_one_le (by linarith), Real.smoothTransition.one_of_one_le (by linarith)]
  ring

/-- The run in units of time in which the interval has length `2 · 10⁻⁶`: two steps. -/
theorem lateBump_units_run {A : Type} (args : A) (x : Fin 1 → ℝ) (M atol rtol : ℝ) (ha : 0 < atol) (hr : 0 ≤ rtol)
    (hM : |M| ≤ 300 * atol) (saveAt : List ℝ) (fuel : ℕ) :
    odeint (fuel + 3) (pureField fun t _ _ => (2 / 10 ^ 6)⁻¹ * lateBump M ((2 / 10 ^ 6)⁻¹ * t)) x [0, 2 / 10 ^ 6]
        (dopri5Solver (Except PyErr) ℝ (Fin 1 → ℝ) A) atol rtol false false saveAt args Finset.univ
      = .ok (some ([0, 2 / 10 ^ 6], [x, fun i => x i + 250 / 1113 * M])) := by
  set c : ℝ := 2 / 10 ^ 6 with hc
  set g : ℝ → (Fin 1 → ℝ) → (Fin 1 → ℝ) := fun t _ _ => c⁻¹ * lateBump M (c⁻¹ * t) with hg
  have hg0 : ∀ t y, (t ≤ 1 / 10 ^ 6 ∨ 16 / 10 ^ 7 ≤ t) → g t y = 0 := fun t y h => by
    funext i
    have : lateBump M (c⁻¹ * t) = 0 := lateBump_zero M _ (by
      rw [hc]
      rcases h with h | h
      · left; norm_num; linarith
      · right; norm_num; linarith)
    simp only [hg, this, mul_zero, Pi.zero_apply]
  have hg1 : ∀ t y, 11 / 10 ^ 7 ≤ t → t ≤ 14 / 10 ^ 7 → g t y = fun _ => c⁻¹ * M := fun t y h h' => by
    funext i
    have : lateBump M (c⁻¹ * t) = M := lateBump_one M _ (by rw [hc]; norm_num; linarith) (by rw [hc]; norm_num; linarith)
    simp only [hg, this]
  obtain ⟨dt, -, hi, e⟩ := odeint_forward (fuel + 3) g x [] (dopri5Solver (Except PyErr) ℝ (Fin 1 → ℝ) A) rfl atol rtol false
    false saveAt args Finset.univ (t0 := 0) (t1 := c) (by rw [hc]; norm_num)
  rw [hg0 0 x (by norm_num)] at hi e
  rw [initStep_quiet g x 0 _ atol rtol (hg0 _ x (by norm_num))] at hi
  cases hi
  rw [e]
  have hint : odeintInterp (dopri5Solver (Except PyErr) ℝ (Fin 1 → ℝ) A) false = none := rfl
  rw [hint]
  set cfg := odeintCfg (m := Except PyErr) (pureField g) (dopri5Solver (Except PyErr) ℝ (Fin 1 → ℝ) A) args atol rtol
    Finset.univ none false with hcfg
  have hs1 : cfg.step x 0 (1 / 10 ^ 6) 0 = .ok (.four 0 x 0 [0, 0, 0, 0, 0, 0, 0]) := by
    refine rk7_quiet (constructDopri5 ℝ) g x 0 (1 / 10 ^ 6) args fun i hi => hg0 _ x (Or.inl ?_)
    interval_cases i <;> simp only [constructDopri5, nth] <;> norm_num
  have he1 : cfg.errRatio x x 0 = 0 := by
    show errorRatio Finset.univ atol rtol x x 0 = 0
    simp [errorRatio, hairerNormOn, errorScaled]
  have hs2 : ∃ st, cfg.step x (1 / 10 ^ 6) (1 / 10 ^ 6) 0 = .ok (.four 0 (fun i => x i + 250 / 1113 * M)
      (fun _ => (500 / 1113 - 22642 / 50085) / 2 * M) st) := by
    refine ⟨[0, fun _ => c⁻¹ * M, fun _ => c⁻¹ * M, 0, 0, 0, 0], ?_⟩
    show rk7Step (m := Except PyErr) (constructDopri5 ℝ) (pureField g) x (1 / 10 ^ 6) (1 / 10 ^ 6) (some 0) args = _
    have q0 : ∀ y, g (1 / 10 ^ 6 + nth (constructDopri5 ℝ).c 0 * (1 / 10 ^ 6)) y = fun _ => c⁻¹ * M := fun y =>
      hg1 _ y (by simp only [constructDopri5, nth]; norm_num) (by simp only [constructDopri5, nth]; norm_num)
    have q1 : ∀ y, g (1 / 10 ^ 6 + nth (constructDopri5 ℝ).c 1 * (1 / 10 ^ 6)) y = fun _ => c⁻¹ * M := fun y =>
      hg1 _ y (by simp only [constructDopri5, nth]; norm_num) (by simp only [constructDopri5, nth]; norm_num)
    have q : ∀ i, 2 ≤ i → i < 6 → ∀ y, g (1 / 10 ^ 6 + nth (constructDopri5 ℝ).c i * (1 / 10 ^ 6)) y = 0 := fun i h2 h6 y =>
      hg0 _ y (Or.inr (by interval_cases i <;> simp only [constructDopri5, nth] <;> norm_num))
    simp only [rk7Step, firstStage, pureField, bind, Except.bind, pure, Except.pure, q0, q1, q 2 (by omega) (by omega),
      q 3 (by omega) (by omega), q 4 (by omega) (by omega), q 5 (by omega) (by omega)]
    congr 2
    · funext i
      simp [constructDopri5, dopri5Bsol, nth]
      rw [hc]
      ring
    · funext i
      simp [constructDopri5, dopri5Bsol, dopri5Bhat, nth]
      rw [hc]
      ring
  obtain ⟨st, hs2⟩ := hs2
  have he2 : cfg.errRatio x (fun i => x i + 250 / 1113 * M) (fun _ => (500 / 1113 - 22642 / 50085) / 2 * M) ≤ 1 := by
    show errorRatio Finset.univ atol rtol x _ _ ≤ 1
    rw [errorRatio, hairerNormOn, Real.sqrt_le_iff]
    refine ⟨zero_le_one, ?_⟩
    simp only [Finset.univ_unique, Finset.sum_singleton, Finset.card_singleton, Nat.cast_one, div_one, errorScaled, sq_abs,
      one_pow]
    rw [sq_le_one_iff_abs_le_one, abs_div]
    have h0 : 0 ≤ rtol * max |x default| |x default + 250 / 1113 * M| := mul_nonneg hr (le_max_of_le_left (abs_nonneg _))
    rw [abs_of_pos (by linarith : 0 < atol + rtol * max |x default| |x default + 250 / 1113 * M|),
      div_le_one (by linarith), abs_mul, abs_of_nonpos (by norm_num)]
    have h7 : -((500 / 1113 - 22642 / 50085 : ℝ) / 2) ≤ 1 / 300 := by norm_num
    have h8 := mul_le_mul_of_nonneg_right h7 (abs_nonneg M)
    linarith
  have i1 := iter_accept cfg rfl rfl c (adaptiveInit 0 x (1 / 10 ^ 6) 0) rfl rfl (1 / 10 ^ 6)
    (by rw [clampDt, if_neg]; rfl; show ¬ (0 : ℝ) + 1 / 10 ^ 6 > c; rw [hc]; norm_num)
    (by show (0 : ℝ) + 1 / 10 ^ 6 ≤ c; rw [hc]; norm_num) 0 x 0 _ hs1 (by show cfg.errRatio x x 0 ≤ 1; rw [he1]; norm_num)
  have n1 : ¬ (adaptiveInit (0 : Fin 1 → ℝ) x (1 / 10 ^ 6 : ℝ) 0).t + 1 / 10 ^ 6 = c := by
    show ¬ (0 : ℝ) + 1 / 10 ^ 6 = c
    rw [hc]; norm_num
  rw [if_neg n1, if_neg n1, if_neg n1] at i1
  have hx1 : (adaptiveInit (0 : Fin 1 → ℝ) x (1 / 10 ^ 6 : ℝ) 0).x = x := rfl
  have ha1 : cfg.adapt (1 / 10 ^ 6) 0 = 1 / 10 ^ 5 := by
    simp only [hcfg, odeintCfg, adaptStep, dopri5Solver, if_true]
    norm_num
  have ht1 : (adaptiveInit (0 : Fin 1 → ℝ) x (1 / 10 ^ 6 : ℝ) 0).t + 1 / 10 ^ 6 = 1 / 10 ^ 6 := zero_add _
  rw [hx1, he1, ha1, ht1] at i1
  obtain ⟨S, hS, hSt, hSdt, hSx, hSk, hSc, hSf, hSe, hSs⟩ : ∃ S : AState ℝ (Fin 1 → ℝ),
      adaptiveIter cfg [c] c (adaptiveInit 0 x (1 / 10 ^ 6) 0) = .ok S ∧ S.t = 1 / 10 ^ 6 ∧ S.dt = 1 / 10 ^ 5 ∧ S.x = x ∧
      S.k1 = 0 ∧ S.ckpt = 0 ∧ S.ckptFlag = false ∧ S.evalTimes = [0] ∧ S.sol = [x] :=
    ⟨_, i1, rfl, rfl, rfl, rfl, rfl, rfl, rfl, rfl⟩
  have hT : S.t + 1 / 10 ^ 6 = c := by rw [hSt, hc]; norm_num
  have i2 := iter_accept cfg rfl rfl c S hSc hSf (1 / 10 ^ 6)
    (by rw [clampDt, if_pos (by rw [hSt, hSdt, hc]; norm_num), hSt, hc]; norm_num) hT.le 0 _ _ st
    (by rw [hSx, hSt, hSk]; exact hs2) (by rw [hSx]; exact he2)
  rw [if_pos hT, if_pos hT, if_pos hT, hT, hSe, hSs] at i2
  have h0 : getItem (m := Except PyErr) [0, c] 0 = .ok 0 := rfl
  have h1 : getItem (m := Except PyErr) [0, c] ([0, c].length - 1) = .ok c := rfl
  have hlt0 : (adaptiveInit (0 : Fin 1 → ℝ) x (1 / 10 ^ 6 : ℝ) 0).t < c := by
    show (0 : ℝ) < c
    rw [hc]; norm_num
  have hlt1 : S.t < c := by rw [hSt, hc]; norm_num
  unfold adaptiveOdeint
  simp only [h0, h1, bind, Except.bind, pure, Except.pure]
  rw [show List.drop 1 [0, c] = [c] from rfl, adaptiveLoop, if_pos hlt0, hS]
  simp only [bind, Except.bind]
  rw [adaptiveLoop, if_pos hlt1, i2]
  simp only [bind, Except.bind]
  rw [adaptiveLoop, if_neg (lt_irrefl _)]
  rfl

/-- **C133 is false** for the unit of time with the adaptive solvers: the step that the library starts with is `10⁻⁶` in whatever
unit, when the field vanishes at the start. For all tolerances there is a smooth field, a function of time alone, such that
`odeint` over `[0, 1]` with `dopri5` returns the initial state as final state, whereas the same problem in the unit of time
in which the interval is `[0, 2 · 10⁻⁶]` gives a final state that is more than `60 · atol` away from it. -/
theorem C133_time_units_refuted {A : Type} (args : A) (x : Fin 1 → ℝ) (atol rtol : ℝ) (ha : 0 < atol) (hr : 0 ≤ rtol)
    (saveAt : List ℝ) (fuel : ℕ) (hf : 8 ≤ fuel) :
    ∃ φ : ℝ → ℝ, ContDiff ℝ (⊤ : ℕ∞) φ ∧ ∃ c : ℝ, 0 < c ∧ ∃ y : Fin 1 → ℝ, x 0 + 60 * atol < y 0 ∧
      odeint fuel (pureField fun t _ _ => φ t) x [0, 1] (dopri5Solver (Except PyErr) ℝ (Fin 1 → ℝ) A) atol rtol false false
        saveAt args Finset.univ = .ok (some ([0, 1], [x, x])) ∧
      odeint fuel (pureField fun t _ => c⁻¹ • fun _ => φ (c⁻¹ * t)) x ([0, 1].map (c * ·))
        (dopri5Solver (Except PyErr) ℝ (Fin 1 → ℝ) A) atol rtol false false saveAt args Finset.univ =
          .ok (some ([0, 1].map (c * ·), [x, y])) := by
  refine ⟨lateBump (300 * atol), lateBump_smooth _, 2 / 10 ^ 6, by norm_num, fun i => x i + 250 / 1113 * (300 * atol), ?_, ?_, ?_⟩
  · norm_num
    linarith
  · obtain ⟨n, rfl⟩ := Nat.exists_eq_add_of_le' hf
    exact quiet_zero_run (A := A) false (lateBump (300 * atol)) (fun t h => lateBump_zero _ t (by
      rcases h with h | h
      · left; linarith
      · right; linarith)) args x atol rtol saveAt Finset.univ n
  · obtain ⟨n, rfl⟩ := Nat.exists_eq_add_of_le' (show 3 ≤ fuel by omega)
    have := lateBump_units_run args x (300 * atol) atol rtol ha hr (by rw [abs_of_pos (by positivity)]) saveAt n
    simp only [List.map_cons, List.map_nil, mul_zero, mul_one]
    exact this

end time

end Torchdyn
