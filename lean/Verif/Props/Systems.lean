import Verif.Model.Systems
import Verif.Props.Symmetry
import Verif.Props.LinearGrowth
import Mathlib.Analysis.Calculus.Deriv.MeanValue
import Mathlib.Analysis.Calculus.Deriv.Prod
import Mathlib.Analysis.SpecialFunctions.ExpDeriv

/-!
Property C94: the bundled systems.
-/

set_option linter.unusedSectionVars false
set_option linter.unusedSimpArgs false

namespace Torchdyn

open Spec

/-! ### Reflections -/

section reflection

variable {ι A : Type} [Fintype ι]

/-- Multiply every entry by its sign. -/
def reflect (s : ι → ℝ) : (ι → ℝ) →ₗ[ℝ] (ι → ℝ) where
  toFun x i := s i * x i
  map_add' x y := by funext i; simp only [Pi.add_apply]; ring
  map_smul' c x := by funext i; simp only [Pi.smul_apply, smul_eq_mul, RingHom.id_apply]; ring

theorem hairerNormOn_reflect (sel : Finset ι) {s : ι → ℝ} (hs : ∀ i, |s i| = 1) (u : ι → ℝ) :
    hairerNormOn sel (fun i => s i * u i) = hairerNormOn sel u := by
  unfold hairerNormOn
  simp only [abs_mul, hs, one_mul]

theorem errorRatio_reflect (sel : Finset ι) {s : ι → ℝ} (hs : ∀ i, |s i| = 1) (atol rtol : ℝ) (x x' e : ι → ℝ) :
    errorRatio sel atol rtol (reflect s x) (reflect s x') (reflect s e) = errorRatio sel atol rtol x x' e := by
  unfold errorRatio
  rw [← hairerNormOn_reflect sel hs (errorScaled atol rtol x x' e)]
  congr 1
  funext i
  simp only [errorScaled, reflect, LinearMap.coe_mk, AddHom.coe_mk, abs_mul, hs, one_mul, mul_div_assoc]

theorem initStep_reflect {s : ι → ℝ} (hs : ∀ i, |s i| = 1) (f : ℝ → (ι → ℝ) → (ι → ℝ))
    (hf : ∀ t x, f t (reflect s x) = reflect s (f t x)) (f0 x0 : ι → ℝ) (t0 : ℝ) (order : ℕ) (atol rtol : ℝ) :
    initStep (m := Except PyErr) (pureField f) (reflect s f0) (reflect s x0) t0 order atol rtol =
      initStep (m := Except PyErr) (pureField f) f0 x0 t0 order atol rtol := by
  have e : ∀ u : ι → ℝ, hairerNorm (fun i => s i * u i / (atol + |x0 i| * rtol)) =
      hairerNorm (fun i => u i / (atol + |x0 i| * rtol)) := by
    intro u
    simp only [mul_div_assoc]
    exact hairerNormOn_reflect _ hs _
  have hr : ∀ (u : ι → ℝ) i, reflect s u i = s i * u i := fun _ _ => rfl
  simp only [initStep, hr, abs_mul, hs, one_mul, e]
  have e2 : ∀ h0 : ℝ, f (t0 + h0) (fun i => s i * x0 i + h0 * (s i * f0 i)) =
      reflect s (f (t0 + h0) (fun i => x0 i + h0 * f0 i)) := by
    intro h0
    rw [← hf]
    congr 1
    funext i
    rw [hr]
    ring
  simp only [pureField, e2, bind, Except.bind, pure, Except.pure, hr, ← mul_sub, e]

theorem cfg_reflect (tsit : Bool) {s : ι → ℝ} (hs : ∀ i, |s i| = 1) (f : ℝ → (ι → ℝ) → (ι → ℝ))
    (hf : ∀ t x, f t (reflect s x) = reflect s (f t x)) (args : A) (atol rtol : ℝ) (sel : Finset ι) (ui rae : Bool) :
    CfgMap (reflect s)
      (odeintCfg (pureField f) (libSolver tsit ι A) args atol rtol sel (odeintInterp (libSolver tsit ι A) ui) rae)
      (odeintCfg (pureField f) (libSolver tsit ι A) args atol rtol sel (odeintInterp (libSolver tsit ι A) ui) rae) := by
  refine ⟨?_, ?_, rfl, rfl, ?_⟩
  · exact fun x t dt k => libSolver_step tsit (reflect s) f f (fun t x => (hf t x).symm) x t dt k args
  · exact fun x x' e => errorRatio_reflect sel hs atol rtol x x' e
  · cases tsit with
    | true => exact Or.inl ⟨rfl, rfl⟩
    | false =>
      cases ui with
      | false => exact Or.inl ⟨rfl, rfl⟩
      | true => exact Or.inr ⟨_, _, rfl, rfl, fun t dt k k' x x' st tq => dense_map _ _ _ _ _ _ _ _ _ _⟩

/-- **C94.** Adaptive integration respects reflection symmetries of the field exactly: if the field commutes with a
change of sign of some of the entries, so does `odeint` (`dopri5` and `tsit5`, every grid, every setting). -/
theorem C94_reflection (tsit : Bool) {s : ι → ℝ} (hs : ∀ i, |s i| = 1) (f : ℝ → (ι → ℝ) → (ι → ℝ))
    (hf : ∀ t x, f t (reflect s x) = reflect s (f t x)) (x : ι → ℝ) (tSpan : List ℝ) (atol rtol : ℝ) (ui rae : Bool)
    (saveAt : List ℝ) (args : A) (sel : Finset ι) (fuel : ℕ) :
    odeint fuel (pureField f) (reflect s x) tSpan (libSolver tsit ι A) atol rtol ui rae saveAt args sel =
      (odeint fuel (pureField f) x tSpan (libSolver tsit ι A) atol rtol ui rae saveAt args sel).map
        (Option.map (fun r => (r.1, r.2.map (reflect s)))) := by
  have hι : (libSolver tsit ι A).adaptive = true := by cases tsit <;> rfl
  match tSpan with
  | [] => rfl
  | [_] => rfl
  | t0 :: t1 :: rest =>
    rcases le_or_gt t0 t1 with hd | hd
    · obtain ⟨d1, -, hi1, e1⟩ := odeint_forward fuel f (reflect s x) rest (libSolver tsit ι A) hι atol rtol ui rae
        saveAt args sel hd
      obtain ⟨d2, -, hi2, e2⟩ := odeint_forward fuel f x rest (libSolver tsit ι A) hι atol rtol ui rae
        saveAt args sel hd
      rw [hf, initStep_reflect hs f hf, hi2] at hi1
      have hd12 : d2 = d1 := Except.ok.inj hi1
      rw [e1, e2, hf, ← hd12]
      exact (cfg_reflect tsit hs f hf args atol rtol sel ui rae).odeint fuel (f t0 x) x d2 _
    · obtain ⟨dt, hdt, hi⟩ := initStep_pos f (-f (-(-t0)) x) x (-t0) (libSolver tsit ι A).order atol rtol
      have hi' : initStep (m := Except PyErr) (pureField f) (-f (-(-t0)) (reflect s x)) (reflect s x) (-t0)
          (libSolver tsit ι A).order atol rtol = .ok dt := by
        rw [hf, ← map_neg]
        exact (initStep_reflect hs f hf (-f (-(-t0)) x) x (-t0) _ atol rtol).trans hi
      have key : ∀ (y : ι → ℝ)
          (hF : initStep (m := Except PyErr) (pureField f) (-f (-(-t0)) y) y (-t0) (libSolver tsit ι A).order atol rtol =
            .ok dt),
          odeint fuel (pureField f) y (t0 :: t1 :: rest) (libSolver tsit ι A) atol rtol ui rae saveAt args sel =
          adaptiveOdeint (odeintCfg (pureField (fun t x => -f (-t) x)) (libSolver tsit ι A) args atol rtol sel
            (odeintInterp (libSolver tsit ι A) ui) rae) fuel (-f (-(-t0)) y) y dt
            ((t0 :: t1 :: rest).map (fun t => -t)) := by
        intro y hF
        have hk : reverseField (pureField (m := Except PyErr) f) (-t0) y = .ok (-f (-(-t0)) y) := rfl
        simp only [odeint, odeintDirection, getItem, List.getElem?_cons_succ, List.map_cons,
          List.getElem?_cons_zero, pure_bind, if_pos hd, hι, if_true, hk]
        simp only [bind, Except.bind, hF]
        rfl
      rw [key _ hi', key _ hi, hf, ← map_neg]
      exact (cfg_reflect tsit hs (fun t x => -f (-t) x) (fun t x => by rw [hf, map_neg]) args atol rtol sel ui
        rae).odeint fuel (-f (-(-t0)) x) x dt _

end reflection

variable {β A : Type} [Fintype β]

/-- The rotation by a half turn about the third axis, on every sample. -/
def lorenzSign : β × Fin 3 → ℝ := fun p => ![-1, -1, 1] p.2

/-- **C94**, `Lorenz`: rotating the initial states by a half turn about the third axis rotates the whole result. -/
theorem C94_lorenz_symmetry (tsit : Bool) (x : β × Fin 3 → ℝ) (tSpan : List ℝ) (atol rtol : ℝ) (ui rae : Bool)
    (saveAt : List ℝ) (args : A) (sel : Finset (β × Fin 3)) (fuel : ℕ) :
    let half : (β × Fin 3 → ℝ) → (β × Fin 3 → ℝ) := fun y p => ![-y (p.1, 0), -y (p.1, 1), y (p.1, 2)] p.2
    odeint fuel (pureField (fun _ => batched lorenz)) (half x) tSpan (libSolver tsit _ A) atol rtol ui rae saveAt args
        sel =
      (odeint fuel (pureField (fun _ => batched lorenz)) x tSpan (libSolver tsit _ A) atol rtol ui rae saveAt args
        sel).map (Option.map (fun r => (r.1, r.2.map half))) := by
  have e : (fun (y : β × Fin 3 → ℝ) (p : β × Fin 3) => ![-y (p.1, 0), -y (p.1, 1), y (p.1, 2)] p.2) =
      reflect lorenzSign := by
    funext y ⟨b, d⟩
    fin_cases d <;> simp [reflect, lorenzSign]
  intro half
  have e0 : half = reflect lorenzSign := e
  rw [e0]
  refine C94_reflection tsit ?_ _ ?_ x tSpan atol rtol ui rae saveAt args sel fuel
  · rintro ⟨b, d⟩
    fin_cases d <;> simp [lorenzSign]
  · intro t y
    funext ⟨b, d⟩
    fin_cases d <;> simp [batched, lorenz, reflect, lorenzSign] <;> ring

/-- **C94**, `ODEProblem4` (Rabinovich-Fabrikant): it has the symmetry of `Lorenz`. -/
theorem C94_rabinovich_symmetry (tsit : Bool) (x : β × Fin 3 → ℝ) (tSpan : List ℝ) (atol rtol : ℝ) (ui rae : Bool)
    (saveAt : List ℝ) (args : A) (sel : Finset (β × Fin 3)) (fuel : ℕ) :
    let half : (β × Fin 3 → ℝ) → (β × Fin 3 → ℝ) := fun y p => ![-y (p.1, 0), -y (p.1, 1), y (p.1, 2)] p.2
    odeint fuel (pureField (fun _ => batched odeProblem4)) (half x) tSpan (libSolver tsit _ A) atol rtol ui rae saveAt args
        sel =
      (odeint fuel (pureField (fun _ => batched odeProblem4)) x tSpan (libSolver tsit _ A) atol rtol ui rae saveAt args
        sel).map (Option.map (fun r => (r.1, r.2.map half))) := by
  have e : (fun (y : β × Fin 3 → ℝ) (p : β × Fin 3) => ![-y (p.1, 0), -y (p.1, 1), y (p.1, 2)] p.2) =
      reflect lorenzSign := by
    funext y ⟨b, d⟩
    fin_cases d <;> simp [reflect, lorenzSign]
  intro half
  have e0 : half = reflect lorenzSign := e
  rw [e0]
  refine C94_reflection tsit ?_ _ ?_ x tSpan atol rtol ui rae saveAt args sel fuel
  · rintro ⟨b, d⟩
    fin_cases d <;> simp [lorenzSign]
  · intro t y
    funext ⟨b, d⟩
    fin_cases d <;> simp [batched, odeProblem4, reflect, lorenzSign] <;> ring

/-- **C94**, `ODEProblem4`: the diagonal of its derivative has the sum `-0.46` everywhere (volumes shrink at this constant rate),
and the plane `x3 = 0` is invariant: the field is tangent to it. -/
theorem C94_rabinovich_dissipative (z : Fin 3 → ℝ) :
    (∃ d : Fin 3 → ℝ, (∀ i, HasDerivAt (fun u => odeProblem4 (Function.update z i u) i) (d i) (z i)) ∧ ∑ i, d i = -46 / 100) ∧
    (z 2 = 0 → odeProblem4 z 2 = 0) := by
  refine ⟨⟨![2 * z 0 * z 1 + 87 / 100, 87 / 100, -2 * (11 / 10 + z 0 * z 1)], ?_, ?_⟩, ?_⟩
  · intro i
    fin_cases i
    · simp only [odeProblem4, Fin.zero_eta, Function.update_self, Matrix.cons_val_zero,
        Function.update_of_ne (show (1 : Fin 3) ≠ 0 by decide), Function.update_of_ne (show (2 : Fin 3) ≠ 0 by decide)]
      have h := ((((hasDerivAt_id (z 0)).pow 2).const_add (z 2 - 1)).const_mul (z 1)).add ((hasDerivAt_id (z 0)).const_mul (87 / 100))
      exact h.congr_deriv (by simp; ring)
    · simp only [odeProblem4, Fin.mk_one, Function.update_self, Matrix.cons_val_one, Matrix.cons_val_zero,
        Function.update_of_ne (show (0 : Fin 3) ≠ 1 by decide), Function.update_of_ne (show (2 : Fin 3) ≠ 1 by decide)]
      have h := ((hasDerivAt_id (z 1)).const_mul (87 / 100)).const_add (z 0 * (3 * z 2 + 1 - z 0 ^ 2))
      exact h.congr_deriv (by simp)
    · simp only [odeProblem4, Fin.reduceFinMk, Function.update_self, Matrix.cons_val,
        Function.update_of_ne (show (0 : Fin 3) ≠ 2 by decide), Function.update_of_ne (show (1 : Fin 3) ≠ 2 by decide)]
      have h := ((hasDerivAt_id (z 2)).const_mul (-2)).mul_const (11 / 10 + z 0 * z 1)
      exact h.congr_deriv (by simp)
  · simp [Fin.sum_univ_three]
    ring
  · intro h
    simp [odeProblem4, h]

/-- **C94**, `VanDerPol`: the opposite initial states give the opposite result. -/
theorem C94_vanDerPol_symmetry (tsit : Bool) (alpha : ℝ) (x : β × Fin 2 → ℝ) (tSpan : List ℝ) (atol rtol : ℝ)
    (ui rae : Bool) (saveAt : List ℝ) (args : A) (sel : Finset (β × Fin 2)) (fuel : ℕ) :
    odeint fuel (pureField (fun _ => batched (vanDerPol alpha))) (-x) tSpan (libSolver tsit _ A) atol rtol ui rae saveAt
        args sel =
      (odeint fuel (pureField (fun _ => batched (vanDerPol alpha))) x tSpan (libSolver tsit _ A) atol rtol ui rae saveAt
        args sel).map (Option.map (fun r => (r.1, r.2.map (fun y => -y)))) := by
  have e : (fun y : β × Fin 2 → ℝ => -y) = reflect (fun _ => -1) := by
    funext y p
    simp [reflect]
  have e' : -x = reflect (fun _ => -1) x := congrFun e x
  rw [e, e']
  refine C94_reflection tsit (fun _ => by simp) _ ?_ x tSpan atol rtol ui rae saveAt args sel fuel
  intro t y
  funext ⟨b, d⟩
  fin_cases d <;> simp [batched, vanDerPol, reflect]; ring

/-- **C94**, `VanDerPol.nfe` counts the evaluations: `1`, `2`, `4` per interval for `euler`, `midpoint`, `rk4`. -/
theorem C94_vanDerPol_nfe (alpha : ℝ) (x : β × Fin 2 → ℝ) (tSpan : List ℝ) (args : A)
    (h2 : 2 ≤ tSpan.length) (hsep : Separated tSpan) (nfe : Nat) :
    (∃ r, (odeintFixed (vanDerPolForward alpha) x tSpan (eulerSolver (StateT Nat (Except PyErr)) ℝ _ A) [] args).run nfe =
      .ok (r, nfe + (tSpan.length - 1) * 1)) ∧
    (∃ r, (odeintFixed (vanDerPolForward alpha) x tSpan (midpointSolver (StateT Nat (Except PyErr)) ℝ _ A) [] args).run
      nfe = .ok (r, nfe + (tSpan.length - 1) * 2)) ∧
    (∃ r, (odeintFixed (vanDerPolForward alpha) x tSpan (rk4Solver (StateT Nat (Except PyErr)) ℝ _ A) [] args).run nfe =
      .ok (r, nfe + (tSpan.length - 1) * 4)) :=
  C18_nfe (fun _ => batched (vanDerPol alpha)) args x tSpan h2 hsep nfe

/-! ### Lorenz: bounded solutions -/

/-- The ellipsoid function of the Lorenz system. -/
def lorenzV (x : Fin 3 → ℝ) : ℝ := 28 * x 0 ^ 2 + 10 * x 1 ^ 2 + 10 * (x 2 - 56) ^ 2

/-- **C94.** Every solution of `Lorenz` stays in an ellipsoid around `(0, 0, 56)`, and enters the ellipsoid
`V ≤ 33451 + ε` for every `ε > 0`: `V` decays exponentially to at most `33451`. -/
theorem C94_lorenz_bounded (x : ℝ → Fin 3 → ℝ) (t0 : ℝ) (hx : ∀ t, t0 ≤ t → HasDerivAt x (lorenz (x t)) t) (t : ℝ)
    (ht : t0 ≤ t) : lorenzV (x t) - 33451 ≤ (lorenzV (x t0) - 33451) * Real.exp (-2 * (t - t0)) := by
  have hV : ∀ t, t0 ≤ t → HasDerivAt (fun t => (lorenzV (x t) - 33451) * Real.exp (2 * t))
      ((28 * (2 * x t 0 * lorenz (x t) 0) + 10 * (2 * x t 1 * lorenz (x t) 1) +
        10 * (2 * (x t 2 - 56) * lorenz (x t) 2)) * Real.exp (2 * t) +
        (lorenzV (x t) - 33451) * (Real.exp (2 * t) * 2)) t := by
    intro t ht
    have hi : ∀ i, HasDerivAt (fun t => x t i) (lorenz (x t) i) t := fun i => hasDerivAt_pi.1 (hx t ht) i
    have h0 := ((hi 0).pow 2).const_mul 28
    have h1 := ((hi 1).pow 2).const_mul 10
    have h2 := (((hi 2).sub_const 56).pow 2).const_mul 10
    have he : HasDerivAt (fun t : ℝ => Real.exp (2 * t)) (Real.exp (2 * t) * 2) t := by
      have := ((hasDerivAt_id t).const_mul 2).exp
      simpa using this
    have hs := (((h0.add h1).add h2).sub_const 33451).mul he
    refine HasDerivAt.congr_deriv hs ?_
    simp only [lorenzV, Pi.add_apply]
    norm_num
  have hanti : AntitoneOn (fun t => (lorenzV (x t) - 33451) * Real.exp (2 * t)) (Set.Ici t0) := by
    refine antitoneOn_of_deriv_nonpos (convex_Ici t0) ?_ ?_ ?_
    · intro t ht
      exact (hV t ht).continuousAt.continuousWithinAt
    · intro t ht
      rw [interior_Ici] at ht
      exact (hV t (Set.mem_Ioi.1 ht).le).differentiableAt.differentiableWithinAt
    · intro t ht
      rw [interior_Ici] at ht
      rw [(hV t (Set.mem_Ioi.1 ht).le).deriv]
      have hpos := Real.exp_pos (2 * t)
      have : (28 * (2 * x t 0 * lorenz (x t) 0) + 10 * (2 * x t 1 * lorenz (x t) 1) +
        10 * (2 * (x t 2 - 56) * lorenz (x t) 2)) + 2 * (lorenzV (x t) - 33451) ≤ 0 := by
        simp only [lorenz, lorenzV, Matrix.cons_val_zero, Matrix.cons_val_one, Matrix.cons_val]
        nlinarith [sq_nonneg (x t 0), sq_nonneg (x t 2 - 56 / 5)]
      nlinarith
  have := hanti (Set.mem_Ici.2 le_rfl) (Set.mem_Ici.2 ht) ht
  have e : Real.exp (-2 * (t - t0)) = Real.exp (2 * t0) * Real.exp (-(2 * t)) := by
    rw [← Real.exp_add]; congr 1; ring
  rw [e, ← mul_assoc]
  calc lorenzV (x t) - 33451 = (lorenzV (x t) - 33451) * Real.exp (2 * t) * Real.exp (-(2 * t)) := by
        rw [mul_assoc, ← Real.exp_add]; simp
    _ ≤ _ := mul_le_mul_of_nonneg_right this (Real.exp_pos _).le

/-- Non-vacuity: the rest point at the origin, and the moving solution on the third axis. -/
example (c : ℝ) : ∀ t, 0 ≤ t → HasDerivAt (fun t => ![0, 0, c * Real.exp (-8 / 3 * t)])
    (lorenz (![0, 0, c * Real.exp (-8 / 3 * t)])) t := by
  intro t _
  rw [hasDerivAt_pi]
  intro i
  fin_cases i
  · simpa [lorenz] using hasDerivAt_const t (0 : ℝ)
  · simpa [lorenz] using hasDerivAt_const t (0 : ℝ)
  · have := (((hasDerivAt_id t).const_mul (-8 / 3)).exp).const_mul c
    refine HasDerivAt.congr_deriv (by simpa using this) ?_
    simp [lorenz]
    ring

/-! ### Termination on the bundled systems -/

/-- The adaptive solver returns. -/
def Returns (tsit : Bool) {ι : Type} [Fintype ι] (f : ℝ → (ι → ℝ) → (ι → ℝ)) : Prop :=
  ∀ (x : ι → ℝ) (t0 t1 : ℝ) (rest : List ℝ), Increasing (t0 :: t1 :: rest) →
    ∀ (atol rtol : ℝ), 0 < atol → 0 ≤ rtol → ∀ (ui rae : Bool) (sel : Finset ι),
    ∃ fuel ts xs, odeint fuel (pureField f) x (t0 :: t1 :: rest) (libSolver tsit ι Unit) atol rtol ui rae [] () sel =
      .ok (some (ts, xs))

theorem returns_of_growth (tsit : Bool) {ι : Type} [Fintype ι] (f : ℝ → (ι → ℝ) → (ι → ℝ)) (a L : ℝ) (ha : 0 ≤ a)
    (hL : 0 ≤ L) (h : ∀ t x i, |f t x i| ≤ a + L * ‖x‖) : Returns tsit f := by
  have h' : ∀ t x, ‖f t x‖ ≤ a + L * ‖x‖ := fun t x =>
    (pi_norm_le_iff_of_nonneg (by positivity)).2 (fun i => h t x i)
  intro x t0 t1 rest hinc atol rtol hat hrt ui rae sel
  cases tsit with
  | true => exact C27_terminates_tsit5_linear () f a L ha hL h' x t0 t1 rest hinc atol rtol hat hrt ui rae [] sel
  | false => exact C27_terminates_dopri5_linear () f a L ha hL h' x t0 t1 rest hinc atol rtol hat hrt ui rae [] sel

theorem linear_bound {n m : ℕ} (l : Linear n m) (x : Fin n → ℝ) (B : ℝ) (hx : ∀ j, |x j| ≤ B) (i : Fin m) :
    |l.forward x i| ≤ (∑ i, |l.bias i|) + (∑ i, ∑ j, |l.weight i j|) * B := by
  have h1 : |l.bias i| ≤ ∑ i, |l.bias i| := Finset.single_le_sum (fun i _ => abs_nonneg (l.bias i)) (Finset.mem_univ i)
  have h2 : ∑ j, |l.weight i j| ≤ ∑ i, ∑ j, |l.weight i j| :=
    Finset.single_le_sum (f := fun i => ∑ j, |l.weight i j|) (fun i _ => Finset.sum_nonneg fun j _ => abs_nonneg _)
      (Finset.mem_univ i)
  have h3 : |l.weight.mulVec x i| ≤ (∑ j, |l.weight i j|) * B := by
    rw [Matrix.mulVec, dotProduct, Finset.sum_mul]
    refine (Finset.abs_sum_le_sum_abs _ _).trans (Finset.sum_le_sum fun j _ => ?_)
    rw [abs_mul]
    exact mul_le_mul_of_nonneg_left (hx j) (abs_nonneg _)
  unfold Linear.forward
  rcases Nat.eq_zero_or_pos n with rfl | hn
  · have : l.weight.mulVec x i = 0 := by simp [Matrix.mulVec, dotProduct]
    rw [this, zero_add]
    simpa using h1
  · have hB : 0 ≤ B := (abs_nonneg _).trans (hx ⟨0, hn⟩)
    have := mul_le_mul_of_nonneg_right h2 hB
    exact (abs_add_le _ _).trans (by linarith)

theorem fourier_bound {dim n : ℕ} (p : FourierParams dim n) (s : ℝ) (d : Fin dim) :
    |p.value s d| ≤ ∑ d, ∑ h, (|p.A d h 0| + |p.A d h 1|) := by
  have h2 : ∑ h, (|p.A d h 0| + |p.A d h 1|) ≤ ∑ d, ∑ h, (|p.A d h 0| + |p.A d h 1|) :=
    Finset.single_le_sum (f := fun d => ∑ h, (|p.A d h 0| + |p.A d h 1|))
      (fun i _ => Finset.sum_nonneg fun j _ => by positivity) (Finset.mem_univ d)
  refine le_trans ?_ h2
  unfold FourierParams.value
  refine (Finset.abs_sum_le_sum_abs _ _).trans (Finset.sum_le_sum fun h _ => ?_)
  refine (abs_add_le _ _).trans (add_le_add ?_ ?_) <;>
  · rw [abs_mul]
    exact mul_le_of_le_one_right (abs_nonneg _) (Real.abs_cos_le_one _)

/-- **C94.** Adaptive `odeint` returns on the bundled systems of linear growth, whatever their (random) parameters,
initial batches, grids and positive tolerances: `ODEProblem2`, `ODEProblem3`, `SineSystem`, `LTISystem`, the three
Fourier systems (the stiff one has the same code), `MatMulSystem` and `MatMulBoundedSystem`. -/
theorem C94_returns (tsit : Bool) {dim n hdim : ℕ} (l : Linear dim dim) (p : FourierParams dim n)
    (q : MatMulParams dim hdim) :
    Returns tsit (ι := β × Fin dim) odeProblem2 ∧ Returns tsit (ι := β × Fin dim) odeProblem3 ∧
    Returns tsit (ι := β × Fin dim) sineSystem ∧ Returns tsit (ι := β × Fin dim) (fun _ => batched (ltiSystem l)) ∧
    Returns tsit (ι := β × Fin dim) (fourierSystem p) ∧ Returns tsit (ι := β × Fin dim) (coupledFourierSystem p l) ∧
    Returns tsit (ι := β × Fin dim) (fun _ => batched (matMulSystem q)) ∧
    Returns tsit (ι := β × Fin dim) (fun _ => batched (matMulBoundedSystem q)) := by
  have hn : ∀ (x : β × Fin dim → ℝ) i, |x i| ≤ ‖x‖ := fun x i => norm_le_pi_norm x i
  have hW : 0 ≤ ∑ i, ∑ j, |l.weight i j| := Finset.sum_nonneg fun i _ => Finset.sum_nonneg fun j _ => abs_nonneg _
  have hb : 0 ≤ ∑ i, |l.bias i| := Finset.sum_nonneg fun i _ => abs_nonneg _
  have hW' : 0 ≤ ∑ i, ∑ j, |q.output.weight i j| :=
    Finset.sum_nonneg fun i _ => Finset.sum_nonneg fun j _ => abs_nonneg _
  have hb' : 0 ≤ ∑ i, |q.output.bias i| := Finset.sum_nonneg fun i _ => abs_nonneg _
  have hA : 0 ≤ ∑ d, ∑ h, (|p.A d h 0| + |p.A d h 1|) :=
    Finset.sum_nonneg fun i _ => Finset.sum_nonneg fun j _ => by positivity
  refine ⟨?_, ?_, ?_, ?_, ?_, ?_, ?_, ?_⟩
  · refine returns_of_growth tsit _ 0 (1 / 2) le_rfl (by norm_num) (fun t x i => ?_)
    simp only [odeProblem2, Pi.smul_apply, smul_eq_mul, abs_mul, zero_add]
    rw [abs_of_pos (by norm_num : (0 : ℝ) < 1 / 2)]
    exact mul_le_mul_of_nonneg_left (hn x i) (by norm_num)
  · refine returns_of_growth tsit _ 0 (1 / 10) le_rfl (by norm_num) (fun t x i => ?_)
    simp only [odeProblem3, Pi.smul_apply, smul_eq_mul, abs_mul, zero_add]
    rw [show |(-1 / 10 : ℝ)| = 1 / 10 by norm_num [abs_of_neg]]
    exact mul_le_mul_of_nonneg_left (hn x i) (by norm_num)
  · refine returns_of_growth tsit _ 1 0 zero_le_one le_rfl (fun t x i => ?_)
    simpa [sineSystem] using Real.abs_sin_le_one t
  · refine returns_of_growth tsit _ _ _ hb hW (fun t x i => ?_)
    exact linear_bound l _ ‖x‖ (fun j => hn x _) _
  · refine returns_of_growth tsit _ _ 0 hA le_rfl (fun t x i => ?_)
    rw [zero_mul, add_zero]
    exact fourier_bound p t i.2
  · refine returns_of_growth tsit _ (_ + _) 0 (add_nonneg hb (mul_nonneg hW hA)) le_rfl (fun t x i => ?_)
    rw [zero_mul, add_zero]
    exact linear_bound l _ _ (fourier_bound p t) _
  · refine returns_of_growth tsit _ (_ + _) 0 (add_nonneg hb' (mul_nonneg hW' zero_le_one)) le_rfl (fun t x i => ?_)
    rw [zero_mul, add_zero]
    refine linear_bound q.output _ 1 (fun j => ?_) _
    simp only [List.finRange_succ, List.foldl_cons, List.map_cons, List.foldl_nil, List.finRange_zero, List.map_nil]
    exact (Real.abs_tanh_lt_one _).le
  · refine returns_of_growth tsit _ 1 0 zero_le_one le_rfl (fun t x i => ?_)
    rw [zero_mul, add_zero]
    exact (Real.abs_tanh_lt_one _).le

/-! ### Fourier systems -/

theorem foldl_append_map {X Y : Type} (g : X → Y) (l : List X) : ∀ acc, l.foldl (fun sol s => sol ++ [g s]) acc =
    acc ++ l.map g := by
  induction l with
  | nil => intro acc; simp
  | cons a l ih => intro acc; rw [List.foldl_cons, ih]; simp

/-- **C94.** On a vector of times the Fourier systems return, row by row, their values at the single times; an empty
vector raises. -/
theorem C94_fourier_times {dim n : ℕ} (p : FourierParams dim n) (l : Linear dim dim) (s : List ℝ) (hs : s ≠ []) (b : β)
    (x : β × Fin dim → ℝ) :
    p.forwardTimes s = .ok (s.map (fun s' d => fourierSystem p s' x (b, d))) ∧
    coupledForwardTimes p l s = .ok (s.map (fun s' d => coupledFourierSystem p l s' x (b, d))) ∧
    p.forwardTimes [] = .error .runtimeError ∧ coupledForwardTimes p l [] = .error .runtimeError := by
  refine ⟨?_, ?_, rfl, rfl⟩
  · rw [FourierParams.forwardTimes, if_neg hs, foldl_append_map]
    rfl
  · rw [coupledForwardTimes, if_neg hs, foldl_append_map, List.nil_append, List.map_map]
    rfl

/-- **C94.** The Fourier systems do not depend on the state: with the fixed-step solvers the displacement of a sample
from its initial state is the same for all initial states. -/
theorem C94_fourier_displacement {dim n : ℕ} (p : FourierParams dim n) (x y : β × Fin dim → ℝ) (tSpan : List ℝ)
    (hinc : tSpan.Pairwise (· < ·)) (h2 : 2 ≤ tSpan.length) (hsep : Separated tSpan) :
    ∃ xs ys, odeintFixed (pureField (fourierSystem p)) x tSpan (eulerSolver (Except PyErr) ℝ _ Unit) [] () =
        .ok (tSpan, xs) ∧
      odeintFixed (pureField (fourierSystem p)) y tSpan (eulerSolver (Except PyErr) ℝ _ Unit) [] () =
        .ok (tSpan, ys) ∧
      xs.map (fun u => u - x) = ys.map (fun u => u - y) := by
  match tSpan, h2 with
  | t0 :: t1 :: rest, _ =>
    have hd : t0 ≤ t1 := ((List.pairwise_cons.1 hinc).1 t1 (by simp)).le
    let φ : (β × Fin dim → ℝ) → ℝ → ℝ → (β × Fin dim → ℝ) := fun x t dt => x + dt • fourierSystem p t x
    have key : ∀ z, odeintFixed (pureField (fourierSystem p)) z (t0 :: t1 :: rest)
        (eulerSolver (Except PyErr) ℝ _ Unit) [] () = .ok (t0 :: t1 :: rest, gridStates φ z (t0 :: t1 :: rest)) := by
      intro z
      rw [odeintFixed_forward _ _ _ hd,
        fixedOdeint_default _ (pure ()) φ (euler_steppedBy (fourierSystem p) ()).tick z _ (by simp) hsep, tickN_pure]
      rfl
    refine ⟨_, _, key x, key y, ?_⟩
    have gen : ∀ (ts : List ℝ) (u v : β × Fin dim → ℝ), u - x = v - y →
        (gridStates φ u ts).map (fun w => w - x) = (gridStates φ v ts).map (fun w => w - y) := by
      intro ts
      induction ts with
      | nil => intro u v h; rfl
      | cons t ts ih =>
        intro u v h
        cases ts with
        | nil => simp [gridStates, h]
        | cons t' ts =>
          simp only [gridStates, List.map_cons, h]
          congr 1
          refine ih _ _ ?_
          have : fourierSystem p t u = fourierSystem p t v := rfl
          simp only [φ, this]
          rw [add_sub_right_comm, h, add_sub_right_comm]
    exact gen _ _ _ (by simp)

/-- Non-vacuity of C94: a step of `rk4` on the Lorenz system moves the state. -/
example : lorenz ![1, 1, (1 : ℚ)] = ![0, 26, -5 / 3] := by
  funext i
  fin_cases i <;> simp [lorenz] <;> norm_num

end Torchdyn
