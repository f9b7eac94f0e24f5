import Mathlib.Analysis.ODE.Gronwall
import Mathlib.Analysis.SpecialFunctions.Integrals.Basic
import Mathlib.Topology.Algebra.Polynomial
import Verif.Props.AdaptiveAccuracy
import Verif.Proofs.Ode

/-!
Property C120: what the tolerances of the adaptive solvers say about the error of the result.
-/

set_option linter.unusedSectionVars false
set_option linter.unusedSimpArgs false

namespace Torchdyn

open Spec Set

variable {ι A : Type} [Fintype ι]

/-! ### Runs look at the field in finitely many points -/

/-- The computation `F`, which is given a field, depends on finitely many of its values only. -/
def Finitary {V α : Type} (F : (ℝ → V → V) → Except PyErr α) : Prop :=
  ∀ f, ∃ S : Set (ℝ × V), S.Finite ∧ ∀ g, (∀ p ∈ S, g p.1 p.2 = f p.1 p.2) → F g = F f

section finitary

variable {V α β : Type}

theorem finitary_const (r : Except PyErr α) : Finitary (V := V) (fun _ => r) :=
  fun _ => ⟨∅, finite_empty, fun _ _ => rfl⟩

theorem finitary_eval (t : ℝ) (x : V) : Finitary (fun g => (pureField g t x : Except PyErr V)) :=
  fun f => ⟨{(t, x)}, finite_singleton _, fun g hg => by
    have := hg (t, x) rfl
    simp only at this
    simp only [pureField, this]⟩

theorem Finitary.bind {F : (ℝ → V → V) → Except PyErr α} {G : α → (ℝ → V → V) → Except PyErr β} (hF : Finitary F)
    (hG : ∀ a, Finitary (G a)) : Finitary (fun g => F g >>= fun a => G a g) := by
  intro f
  obtain ⟨S, hS, h⟩ := hF f
  cases e : F f with
  | error err => exact ⟨S, hS, fun g hg => by simp only [h g hg, e]; rfl⟩
  | ok a =>
    obtain ⟨S', hS', h'⟩ := hG a f
    refine ⟨S ∪ S', hS.union hS', fun g hg => ?_⟩
    simp only [h g (fun p hp => hg p (Or.inl hp)), e]
    exact h' g (fun p hp => hg p (Or.inr hp))

end finitary

theorem finitary_rk7 {V : Type} [AddCommGroup V] [Module ℝ V] (tab : Tableau ℝ) (x : V) (t dt : ℝ) (k1 : Option V) (args : A) :
    Finitary (fun g => (rk7Step tab (pureField g) x t dt k1 args : Except PyErr (StepOut V))) := by
  unfold rk7Step
  refine Finitary.bind ?_ fun k1 => Finitary.bind (finitary_eval _ _) fun k2 => Finitary.bind (finitary_eval _ _) fun k3 =>
    Finitary.bind (finitary_eval _ _) fun k4 => Finitary.bind (finitary_eval _ _) fun k5 =>
    Finitary.bind (finitary_eval _ _) fun k6 => Finitary.bind (finitary_eval _ _) fun k7 => finitary_const _
  cases k1 with
  | none => exact finitary_eval _ _
  | some k => exact finitary_const _

/-- The step of `solver` looks at finitely many values of the field. -/
def FinitaryStep (solver : Solver (Except PyErr) ℝ (ι → ℝ) A) : Prop :=
  ∀ x t dt k1 args, Finitary (fun g => solver.step (pureField g) x t dt k1 args)

theorem iter_factors {solver : Solver (Except PyErr) ℝ (ι → ℝ) A} (args : A) (atol rtol : ℝ) (sel : Finset ι) (interp) (rae : Bool)
    (tEval : List ℝ) (T : ℝ) (s : AState ℝ (ι → ℝ)) :
    ∃ (dt : ℝ) (C : StepOut (ι → ℝ) → Except PyErr (AState ℝ (ι → ℝ))), ∀ g : ℝ → (ι → ℝ) → (ι → ℝ),
      adaptiveIter (odeintCfg (pureField g) solver args atol rtol sel interp rae) tEval T s
        = solver.step (pureField g) s.x s.t dt (some s.k1) args >>= C := by
  refine ⟨(checkpointDt interp.isSome tEval s (clampDt T s)).1, fun o =>
    adaptiveIter { odeintCfg (pureField fun _ _ => 0) solver args atol rtol sel interp rae with step := fun _ _ _ _ => .ok o }
      tEval T s, fun g => ?_⟩
  unfold adaptiveIter
  simp only [odeintCfg]
  cases solver.step (pureField g) s.x s.t (checkpointDt interp.isSome tEval s (clampDt T s)).1 (some s.k1) args <;> rfl

theorem finitary_loop {solver : Solver (Except PyErr) ℝ (ι → ℝ) A} (hs : FinitaryStep solver) (args : A) (atol rtol : ℝ)
    (sel : Finset ι) (interp) (rae : Bool) (tEval : List ℝ) (T : ℝ) (fuel : ℕ) :
    ∀ s, Finitary (fun g => adaptiveLoop (odeintCfg (pureField g) solver args atol rtol sel interp rae) tEval T fuel s) := by
  induction fuel with
  | zero => exact fun s => finitary_const _
  | succ fuel ih =>
    intro s
    simp only [adaptiveLoop]
    by_cases h : s.t < T
    · simp only [if_pos h]
      refine Finitary.bind ?_ ih
      obtain ⟨dt, C, hC⟩ := iter_factors (solver := solver) args atol rtol sel interp rae tEval T s
      simp only [hC]
      exact Finitary.bind (hs _ _ _ _ _) fun o => finitary_const _
    · simp only [if_neg h]
      exact finitary_const _

theorem finitary_initStep (f0 x0 : ι → ℝ) (t0 : ℝ) (order : ℕ) (atol rtol : ℝ) :
    Finitary (fun g => initStep (m := Except PyErr) (pureField g) f0 x0 t0 order atol rtol) := by
  unfold initStep
  exact Finitary.bind (finitary_eval _ _) fun _ => finitary_const _

/-- A computation on the reversed field is finitary when it is on the field. -/
theorem Finitary.reverse {α : Type} {F : (ℝ → (ι → ℝ) → (ι → ℝ)) → Except PyErr α} (hF : Finitary F) :
    Finitary (fun g => F (fun t x => -g (-t) x)) := by
  intro f
  obtain ⟨S, hS, h⟩ := hF (fun t x => -f (-t) x)
  refine ⟨(fun p : ℝ × (ι → ℝ) => (-p.1, p.2)) '' S, hS.image _, fun g hg => h _ fun p hp => ?_⟩
  have := hg _ ⟨p, hp, rfl⟩
  simp only at this
  simp only [this]

theorem finitary_odeint {solver : Solver (Except PyErr) ℝ (ι → ℝ) A} (hs : FinitaryStep solver)
    (hadp : solver.adaptive = true) (args : A) (x : ι → ℝ) (tSpan : List ℝ) (atol rtol : ℝ) (ui rae : Bool) (saveAt : List ℝ)
    (sel : Finset ι) (fuel : ℕ) :
    Finitary (fun g => odeint fuel (pureField g) x tSpan solver atol rtol ui rae saveAt args sel) := by
  match tSpan with
  | [] => exact finitary_const _
  | [_] => exact finitary_const _
  | t0 :: t1 :: rest =>
    have hl : ∀ k1 dt ts, Finitary (fun g => adaptiveOdeint (odeintCfg (pureField g) solver args atol rtol sel
        (odeintInterp solver ui) rae) fuel k1 x dt ts) := by
      intro k1 dt ts
      unfold adaptiveOdeint
      exact Finitary.bind (finitary_const _) fun t => Finitary.bind (finitary_const _) fun T =>
        Finitary.bind (finitary_loop hs _ _ _ _ _ _ _ _ _ _) fun r => finitary_const _
    by_cases hd : t1 < t0
    · have e : ∀ g : ℝ → (ι → ℝ) → (ι → ℝ), odeint fuel (pureField g) x (t0 :: t1 :: rest) solver atol rtol ui rae saveAt args sel =
          (pureField (m := Except PyErr) (fun t x => -g (-t) x) (-t0) x >>= fun k1 =>
            initStep (m := Except PyErr) (pureField g) k1 x (-t0) solver.order atol rtol >>= fun dt =>
            adaptiveOdeint (odeintCfg (pureField fun t x => -g (-t) x) solver args atol rtol sel (odeintInterp solver ui) rae)
              fuel k1 x dt ((t0 :: t1 :: rest).map (fun t => -t))) := by
        intro g
        simp only [odeint, odeintDirection, getItem, List.getElem?_cons_succ, List.getElem?_cons_zero, pure_bind, if_pos hd, hadp,
          if_true, List.map_cons]
        rfl
      simp only [e]
      refine Finitary.bind (finitary_eval (-t0) x).reverse fun k1 => Finitary.bind (finitary_initStep _ _ _ _ _ _) fun dt => ?_
      exact (hl k1 dt _).reverse
    · have e : ∀ g : ℝ → (ι → ℝ) → (ι → ℝ), odeint fuel (pureField g) x (t0 :: t1 :: rest) solver atol rtol ui rae saveAt args sel =
          (pureField (m := Except PyErr) g t0 x >>= fun k1 =>
            initStep (m := Except PyErr) (pureField g) k1 x t0 solver.order atol rtol >>= fun dt =>
            adaptiveOdeint (odeintCfg (pureField g) solver args atol rtol sel (odeintInterp solver ui) rae)
              fuel k1 x dt (t0 :: t1 :: rest)) := by
        intro g
        simp only [odeint, odeintDirection, getItem, List.getElem?_cons_succ, List.getElem?_cons_zero, pure_bind, if_neg hd, hadp,
          if_true]
        rfl
      simp only [e]
      exact Finitary.bind (finitary_eval t0 x) fun k1 => Finitary.bind (finitary_initStep _ _ _ _ _ _) fun dt => hl k1 dt _

theorem dopri5_finitaryStep : FinitaryStep (dopri5Solver (Except PyErr) ℝ (ι → ℝ) A) :=
  fun x t dt k1 args => finitary_rk7 _ x t dt k1 args

theorem tsit5_finitaryStep : FinitaryStep (tsit5Solver (Except PyErr) ℝ (ι → ℝ) A) :=
  fun x t dt k1 args => finitary_rk7 _ x t dt k1 args

/-- **C120 (evaluations).** Whatever the grid, the tolerances and the options, a run of `odeint` with `dopri5` or
`tsit5` is determined by the values of the field at finitely many points: another field with these values gives the
same result. -/
theorem C120_finitely_many_evaluations (args : A) (x : ι → ℝ) (tSpan : List ℝ) (atol rtol : ℝ) (ui rae : Bool)
    (saveAt : List ℝ) (sel : Finset ι) (fuel : ℕ) (solver : Solver (Except PyErr) ℝ (ι → ℝ) A)
    (hsolver : solver = dopri5Solver (Except PyErr) ℝ (ι → ℝ) A ∨ solver = tsit5Solver (Except PyErr) ℝ (ι → ℝ) A)
    (f : ℝ → (ι → ℝ) → (ι → ℝ)) :
    ∃ S : Set (ℝ × (ι → ℝ)), S.Finite ∧ ∀ g : ℝ → (ι → ℝ) → (ι → ℝ), (∀ p ∈ S, g p.1 p.2 = f p.1 p.2) →
      odeint fuel (pureField g) x tSpan solver atol rtol ui rae saveAt args sel
        = odeint fuel (pureField f) x tSpan solver atol rtol ui rae saveAt args sel := by
  rcases hsolver with rfl | rfl
  · exact finitary_odeint dopri5_finitaryStep rfl args x tSpan atol rtol ui rae saveAt sel fuel f
  · exact finitary_odeint tsit5_finitaryStep rfl args x tSpan atol rtol ui rae saveAt sel fuel f

/-! ### Tolerances do not bound the error -/

theorem rk7_zero_field (tab : Tableau ℝ) (x : ι → ℝ) (t dt : ℝ) (args : A) (k x' e : ι → ℝ) (st : List (ι → ℝ))
    (h : rk7Step tab (fun _ _ => (.ok 0 : Except PyErr (ι → ℝ))) x t dt none args = .ok (.four k x' e st)) : x' = x := by
  simp [rk7Step, firstStage, bind, Except.bind, pure, Except.pure] at h
  exact h.2.1.symm

/-- On the zero field every returned state is the initial state. -/
theorem zero_field_run {solver : Solver (Except PyErr) ℝ (ι → ℝ) A} {args : A} (hs : FsalSolver solver args)
    (hz : ∀ x t dt k x' e st, solver.step (fun _ _ => .ok 0) x t dt none args = .ok (.four k x' e st) → x' = x)
    (x : ι → ℝ) (t0 t1 : ℝ) (rest : List ℝ) (hinc : Increasing (t0 :: t1 :: rest)) (atol rtol : ℝ) (saveAt : List ℝ) (sel : Finset ι)
    (fuel : ℕ) (ts : List ℝ) (xs : List (ι → ℝ))
    (h : odeint fuel (pureField fun _ _ => 0) x (t0 :: t1 :: rest) solver atol rtol false false saveAt args sel
      = .ok (some (ts, xs))) :
    ts = t0 :: t1 :: rest ∧ xs = (t0 :: t1 :: rest).map fun _ => x := by
  obtain ⟨r, hr, hts⟩ := C21_times hs (fun _ _ => 0) x t0 t1 rest hinc atol rtol false saveAt sel fuel
  obtain ⟨h1, h2, h3⟩ := hts ts xs (by rw [hr] at h; exact Except.ok.inj h)
  obtain ⟨-, -, hl, hn⟩ := C22_accepted hs _ x t0 t1 rest hinc atol rtol false false (Or.inl rfl) saveAt sel fuel ts xs h
  have hreach : ∀ p q : Point ι, Reached solver args (fun _ _ => 0) sel atol rtol p q → q.2 = p.2 := by
    intro p q hpq
    induction hpq with
    | refl => rfl
    | tail _ hbc ih =>
      obtain ⟨-, k, e, st, hst, -⟩ := hbc
      rw [hz _ _ _ _ _ _ _ hst, ih]
  have hall : ∀ (i : ℕ) y, xs[i]? = some y → y = x := by
    intro i
    induction i with
    | zero => intro y hy; rw [h3] at hy; exact (Option.some.inj hy).symm
    | succ i ih =>
      intro y hy
      obtain ⟨hi, -⟩ := List.getElem?_eq_some_iff.1 hy
      have e1 := List.getElem?_eq_getElem (l := xs) (i := i) (by omega)
      have e2 := List.getElem?_eq_getElem (l := ts) (i := i) (by omega)
      have e3 := List.getElem?_eq_getElem (l := ts) (i := i + 1) (by omega)
      have := hreach _ _ (hn i _ _ _ _ e2 e1 e3 hy)
      exact this.trans (ih _ e1)
  refine ⟨h1, List.ext_getElem? fun i => ?_⟩
  subst h1
  rw [List.getElem?_map]
  by_cases hi : i < xs.length
  · rw [List.getElem?_eq_getElem hi, hall i _ (List.getElem?_eq_getElem hi), List.getElem?_eq_getElem (by omega)]
    rfl
  · rw [List.getElem?_eq_none (by omega), List.getElem?_eq_none (by omega)]
    rfl

/-- A polynomial vanishing at finitely many given times whose integral over `[a, t]` is at least `E` for `t ≥ b`. -/
theorem exists_spike (S : Set ℝ) (hS : S.Finite) (a b E : ℝ) (hab : a < b) (hE : 0 ≤ E) :
    ∃ P : Polynomial ℝ, (∀ τ ∈ S, P.eval τ = 0) ∧ ∀ t, b ≤ t → E ≤ ∫ u in a..t, P.eval u := by
  let Q : Polynomial ℝ := ∏ τ ∈ hS.toFinset, (Polynomial.X - Polynomial.C τ) ^ 2
  have hQ : ∀ u, Q.eval u = ∏ τ ∈ hS.toFinset, (u - τ) ^ 2 := fun u => by simp [Q, Polynomial.eval_prod]
  have hQ0 : ∀ u, 0 ≤ Q.eval u := fun u => by rw [hQ]; exact Finset.prod_nonneg fun τ _ => sq_nonneg _
  obtain ⟨c, hc, hcS⟩ := ((Ioo_infinite hab).sdiff hS).nonempty
  have hcpos : 0 < Q.eval c := by
    rw [hQ]
    exact Finset.prod_pos fun τ hτ => by
      have : c ≠ τ := fun h => hcS (h ▸ hS.mem_toFinset.1 hτ)
      have := sub_ne_zero.2 this
      positivity
  have hI : 0 < ∫ u in a..b, Q.eval u :=
    intervalIntegral.integral_pos hab Q.continuous.continuousOn (fun u _ => hQ0 u) ⟨c, ⟨hc.1.le, hc.2.le⟩, hcpos⟩
  refine ⟨Polynomial.C (E / ∫ u in a..b, Q.eval u) * Q, fun τ hτ => ?_, fun t ht => ?_⟩
  · rw [Polynomial.eval_mul, hQ, Finset.prod_eq_zero (hS.mem_toFinset.2 hτ) (by simp), mul_zero]
  · simp only [Polynomial.eval_mul, Polynomial.eval_C, intervalIntegral.integral_const_mul]
    rw [← intervalIntegral.integral_add_adjacent_intervals (Q.continuous.intervalIntegrable a b)
      (Q.continuous.intervalIntegrable b t), mul_add, div_mul_cancel₀ _ hI.ne']
    have : 0 ≤ ∫ u in b..t, Q.eval u := intervalIntegral.integral_nonneg ht fun u _ => hQ0 u
    have := mul_nonneg (div_nonneg hE hI.le) this
    linarith

theorem tolerance_refuted_general {solver : Solver (Except PyErr) ℝ (ι → ℝ) A} {args : A} (hs : FsalSolver solver args)
    (hfin : FinitaryStep solver)
    (hz : ∀ x t dt k x' e st, solver.step (fun _ _ => .ok 0) x t dt none args = .ok (.four k x' e st) → x' = x)
    (x : ι → ℝ) (t0 t1 : ℝ) (rest : List ℝ) (hinc : Increasing (t0 :: t1 :: rest)) (atol rtol : ℝ) (saveAt : List ℝ) (sel : Finset ι)
    (hterm : ∃ fuel ts xs, odeint fuel (pureField fun _ _ => 0) x (t0 :: t1 :: rest) solver atol rtol false false saveAt args sel
      = .ok (some (ts, xs))) (E : ℝ) :
    ∃ (P : Polynomial ℝ) (fuel : ℕ),
      odeint fuel (pureField fun t _ _ => P.eval t) x (t0 :: t1 :: rest) solver atol rtol false false saveAt args sel
        = .ok (some (t0 :: t1 :: rest, (t0 :: t1 :: rest).map fun _ => x)) ∧
      ∀ (T : ℝ) (y : ℝ → ι → ℝ), y t0 = x →
        (∀ t ∈ Icc t0 T, HasDerivWithinAt y (fun _ => P.eval t) (Icc t0 T) t) →
        ∀ t ∈ Icc t1 T, ∀ i, x i + E ≤ y t i := by
  obtain ⟨fuel, ts, xs, hrun⟩ := hterm
  obtain ⟨rfl, rfl⟩ := zero_field_run hs hz x t0 t1 rest hinc atol rtol saveAt sel fuel ts xs hrun
  obtain ⟨S, hS, hg⟩ := finitary_odeint hfin hs.adaptive args x (t0 :: t1 :: rest) atol rtol false false saveAt sel fuel
    (fun _ _ => 0)
  have h01 : t0 < t1 := List.pairwise_cons.1 hinc |>.1 t1 (by simp)
  obtain ⟨P, hP, hI⟩ := exists_spike (Prod.fst '' S) (hS.image _) t0 t1 (max E 0) h01 (le_max_right _ _)
  refine ⟨P, fuel, ?_, fun T y hy0 hy t ht i => ?_⟩
  · refine (hg (fun t _ _ => P.eval t) fun p hp => ?_).trans hrun
    funext i
    exact hP _ ⟨p, hp, rfl⟩
  · have hsub : Icc t0 t ⊆ Icc t0 T := Icc_subset_Icc_right ht.2
    have hyi : ∀ u ∈ Icc t0 T, HasDerivWithinAt (fun s => y s i) (P.eval u) (Icc t0 T) u := fun u hu =>
      (hasDerivWithinAt_pi.1 (hy u hu)) i
    have := intervalIntegral.integral_eq_sub_of_hasDerivAt_of_le (h01.le.trans ht.1)
      (fun u hu => ((hyi u (hsub hu)).continuousWithinAt).mono hsub)
      (fun u hu => (hyi u (hsub ⟨hu.1.le, hu.2.le⟩)).hasDerivAt (Icc_mem_nhds hu.1 (hu.2.trans_le ht.2)))
      (P.continuous.intervalIntegrable t0 t)
    have h2 := hI t ht.1
    rw [this, hy0] at h2
    have := le_max_left E 0
    linarith

/-- **C120, refuted (tolerances as error bounds).** Whatever positive `atol`, whatever `rtol`, initial state and
increasing grid, and however large `E`: there is a field — a polynomial in `t` alone — on which `odeint` with `dopri5`
reports the initial state at every grid time, as if nothing moved, while every component of the exact solution has grown
by at least `E` from the second grid time on. -/
theorem C120_tolerance_refuted (args : A) (x : ι → ℝ) (t0 t1 : ℝ) (rest : List ℝ) (hinc : Increasing (t0 :: t1 :: rest))
    (atol rtol : ℝ) (ha : 0 < atol) (hr : 0 ≤ rtol) (saveAt : List ℝ) (sel : Finset ι) (E : ℝ) :
    ∃ (P : Polynomial ℝ) (fuel : ℕ),
      odeint fuel (pureField fun t _ _ => P.eval t) x (t0 :: t1 :: rest) (dopri5Solver (Except PyErr) ℝ (ι → ℝ) A) atol rtol false
        false saveAt args sel
        = .ok (some (t0 :: t1 :: rest, (t0 :: t1 :: rest).map fun _ => x)) ∧
      ∀ (T : ℝ) (y : ℝ → ι → ℝ), y t0 = x →
        (∀ t ∈ Icc t0 T, HasDerivWithinAt y (fun _ => P.eval t) (Icc t0 T) t) →
        ∀ t ∈ Icc t1 T, ∀ i, x i + E ≤ y t i :=
  tolerance_refuted_general (dopri5_fsalSolver args) dopri5_finitaryStep
    (fun x t dt k x' e st h => rk7_zero_field _ x t dt args k x' e st h) x t0 t1 rest hinc atol rtol saveAt sel
    (C27_terminates_dopri5 args _ 0 (fun _ _ _ => by simp) x t0 t1 rest hinc atol rtol ha hr false false saveAt sel) E

/-- **C120, refuted** for `tsit5`. -/
theorem C120_tolerance_tsit5_refuted (args : A) (x : ι → ℝ) (t0 t1 : ℝ) (rest : List ℝ) (hinc : Increasing (t0 :: t1 :: rest))
    (atol rtol : ℝ) (ha : 0 < atol) (hr : 0 ≤ rtol) (saveAt : List ℝ) (sel : Finset ι) (E : ℝ) :
    ∃ (P : Polynomial ℝ) (fuel : ℕ),
      odeint fuel (pureField fun t _ _ => P.eval t) x (t0 :: t1 :: rest) (tsit5Solver (Except PyErr) ℝ (ι → ℝ) A) atol rtol false
        false saveAt args sel
        = .ok (some (t0 :: t1 :: rest, (t0 :: t1 :: rest).map fun _ => x)) ∧
      ∀ (T : ℝ) (y : ℝ → ι → ℝ), y t0 = x →
        (∀ t ∈ Icc t0 T, HasDerivWithinAt y (fun _ => P.eval t) (Icc t0 T) t) →
        ∀ t ∈ Icc t1 T, ∀ i, x i + E ≤ y t i :=
  tolerance_refuted_general (tsit5_fsalSolver args) tsit5_finitaryStep
    (fun x t dt k x' e st h => rk7_zero_field _ x t dt args k x' e st h) x t0 t1 rest hinc atol rtol saveAt sel
    (C27_terminates_tsit5 args _ 0 (fun _ _ _ => by simp) x t0 t1 rest hinc atol rtol ha hr false false saveAt sel) E

/-- The exact solutions quantified over in `C120_tolerance_refuted` exist: `y t = x + ∫ P`. -/
example (P : Polynomial ℝ) (x : Fin 2 → ℝ) (t0 T : ℝ) :
    ∃ y : ℝ → Fin 2 → ℝ, y t0 = x ∧ ∀ t ∈ Icc t0 T, HasDerivWithinAt y (fun _ => P.eval t) (Icc t0 T) t := by
  refine ⟨fun t i => x i + ∫ u in t0..t, P.eval u, by simp, fun t _ => ?_⟩
  refine hasDerivWithinAt_pi.2 fun i => ((HasDerivAt.const_add _ ?_).hasDerivWithinAt)
  exact intervalIntegral.integral_hasDerivAt_right (P.continuous.intervalIntegrable _ _)
    (P.continuous.stronglyMeasurableAtFilter _ _) P.continuous.continuousAt

/-! ### When they do -/

/-- An accepted error estimate is bounded by the tolerances. -/
theorem errorNorm_le_one_bound (atol rtol R : ℝ) (ha : 0 < atol) (hr : 0 ≤ rtol) (x x' e : ι → ℝ)
    (hx : ‖x‖ ≤ R) (hx' : ‖x'‖ ≤ R) (h : errorNorm Finset.univ atol rtol x x' e ≤ 1) :
    ‖e‖ ≤ Real.sqrt (Fintype.card ι) * (atol + rtol * R) := by
  have hR : 0 ≤ R := (norm_nonneg _).trans hx
  have h0 : 0 ≤ Real.sqrt (Fintype.card ι) * (atol + rtol * R) := by positivity
  refine (pi_norm_le_iff_of_nonneg h0).2 fun i => ?_
  have hn : (0 : ℝ) < Fintype.card ι := by
    have : 0 < Fintype.card ι := Fintype.card_pos_iff.2 ⟨i⟩
    exact_mod_cast this
  have h1 := (Real.sqrt_le_one.1 h)
  rw [div_le_one (by simpa using hn), Finset.card_univ] at h1
  have hs : 0 < atol + rtol * max |x i| |x' i| := by positivity
  have h2 : (e i / (atol + rtol * max |x i| |x' i|)) ^ 2 ≤ Fintype.card ι :=
    (Finset.single_le_sum (f := fun i => (e i / (atol + rtol * max |x i| |x' i|)) ^ 2) (fun j _ => sq_nonneg _)
      (Finset.mem_univ i)).trans h1
  have h3 := Real.abs_le_sqrt h2
  rw [abs_div, abs_of_pos hs, div_le_iff₀ hs] at h3
  rw [Real.norm_eq_abs]
  refine h3.trans (mul_le_mul_of_nonneg_left ?_ (Real.sqrt_nonneg _))
  have : max |x i| |x' i| ≤ R :=
    max_le ((norm_le_pi_norm x i).trans hx) ((norm_le_pi_norm x' i).trans hx')
  nlinarith

/-- **C120, partial (what the tolerances do guarantee).** If along a run the estimates are reliable — on each step the
solver kept, the true local error is at most `κ` times the estimate of that step — and the field is `L`-Lipschitz, then
the `i`-th state that `odeint(…, return_all_eval=True)` returns is within
`i · κ · √n · (atol + rtol · R) · exp(L (t - t0))` of the exact solution, `R` bounding the computed states. Missing for
the full claim: the reliability, which `C120_tolerance_refuted` shows not to hold for all fields, and the number `i` of
steps, which no tolerance bounds. -/
theorem C120_reliable_partial {solver : Solver (Except PyErr) ℝ (ι → ℝ) A} {args : A} (hs : FsalSolver solver args)
    (f : ℝ → (ι → ℝ) → (ι → ℝ)) (L : NNReal) (hL : ∀ t, LipschitzWith L (f t)) (hc : ∀ x, Continuous (f · x))
    (x : ι → ℝ) (t0 t1 : ℝ) (rest : List ℝ) (hinc : Increasing (t0 :: t1 :: rest)) (atol rtol : ℝ) (ha : 0 < atol) (hr : 0 ≤ rtol)
    (ui : Bool) (hi : ui = false ∨ solver.isTsit5 = true) (saveAt : List ℝ) (fuel : ℕ) (ts : List ℝ) (xs : List (ι → ℝ))
    (h : odeint fuel (pureField f) x (t0 :: t1 :: rest) solver atol rtol ui true saveAt args Finset.univ = .ok (some (ts, xs)))
    (R : ℝ) (hR : ∀ z ∈ xs, ‖z‖ ≤ R) (κ : ℝ) (hκ : 0 ≤ κ)
    (hrel : ∀ (i : ℕ) t u t' u' k e st (z : ℝ → ι → ℝ), ts[i]? = some t → xs[i]? = some u → ts[i + 1]? = some t' →
      xs[i + 1]? = some u' → solver.step (fun t x => .ok (f t x)) u t (t' - t) none args = .ok (.four k u' e st) →
      z t = u → (∀ s ∈ Icc t t', HasDerivWithinAt z (f s (z s)) (Icc t t') s) → ‖u' - z t'‖ ≤ κ * ‖e‖)
    (T : ℝ) (y : ℝ → ι → ℝ) (hy0 : y t0 = x) (hy : ∀ t ∈ Icc t0 T, HasDerivWithinAt y (f t (y t)) (Icc t0 T) t)
    (i : ℕ) (t : ℝ) (u : ι → ℝ) (ht : ts[i]? = some t) (hu : xs[i]? = some u) (htT : t ≤ T) :
    ‖u - y t‖ ≤ i * (κ * (Real.sqrt (Fintype.card ι) * (atol + rtol * R))) * Real.exp (L * (t - t0)) := by
  have hchain := C23_all_eval_consecutive hs f x t0 t1 rest hinc atol rtol ui hi saveAt Finset.univ fuel ts xs h
  obtain ⟨h0, h0', hlen, -⟩ := C22_accepted hs f x t0 t1 rest hinc atol rtol ui true hi saveAt Finset.univ fuel ts xs h
  set B := κ * (Real.sqrt (Fintype.card ι) * (atol + rtol * R)) with hB
  have hR0 : 0 ≤ R := (norm_nonneg _).trans (hR x (List.mem_of_getElem? h0'))
  have hB0 : 0 ≤ B := by positivity
  suffices H : ∀ (i : ℕ) (t : ℝ) (u : ι → ℝ), ts[i]? = some t → xs[i]? = some u → t0 ≤ t ∧
      (t ≤ T → ‖u - y t‖ ≤ i * B * Real.exp (L * (t - t0))) from (H i t u ht hu).2 htT
  clear ht hu htT t u i
  intro i
  induction i with
  | zero =>
    intro t u ht hu
    rw [h0] at ht; rw [h0'] at hu
    cases ht; cases hu
    simp [hy0]
  | succ i ih =>
    intro t' u' ht' hu'
    obtain ⟨hi1, -⟩ := List.getElem?_eq_some_iff.1 hu'
    have e1 := List.getElem?_eq_getElem (l := xs) (i := i) (by omega)
    have e2 := List.getElem?_eq_getElem (l := ts) (i := i) (by omega)
    generalize xs[i] = u at e1
    generalize ts[i] = t at e2
    obtain ⟨hle, hb⟩ := ih t u e2 e1
    have hstep : AcceptedStep solver args f Finset.univ atol rtol (t, u) (t', u') := by
      have hz := (List.isChain_iff_getElem.1 hchain) i (by simp; omega)
      have a1 : (ts.zip xs)[i]? = some (t, u) := by simp [List.getElem?_zip_eq_some, e1, e2]
      have a2 : (ts.zip xs)[i + 1]? = some (t', u') := by simp [List.getElem?_zip_eq_some, ht', hu']
      rw [(List.getElem?_eq_some_iff.1 a1).2, (List.getElem?_eq_some_iff.1 a2).2] at hz
      exact hz
    obtain ⟨hlt, k, e, st, hst, hnorm⟩ := hstep
    simp only at hlt hst hnorm
    refine ⟨hle.trans hlt.le, fun hT' => ?_⟩
    obtain ⟨z, hz0, hz⟩ := exists_solution hlt.le L (fun s _ => hL s) (fun x => (hc x).continuousOn) u
    have hloc : ‖u' - z t'‖ ≤ B :=
      (hrel i t u t' u' k e st z e2 e1 ht' hu' hst hz0 hz).trans
        (mul_le_mul_of_nonneg_left (errorNorm_le_one_bound atol rtol R ha hr u u' e (hR u (List.mem_of_getElem? e1))
          (hR u' (List.mem_of_getElem? hu')) hnorm) hκ)
    have hsub : Icc t t' ⊆ Icc t0 T := Icc_subset_Icc hle hT'
    have hgron : dist (z t') (y t') ≤ ‖u - y t‖ * Real.exp (L * (t' - t)) := by
      refine dist_le_of_trajectories_ODE (v := f) (K := L) (fun s => hL s) (fun s hs => (hz s hs).continuousWithinAt)
        (fun s hs => ?_) (fun s hs => ((hy s (hsub hs)).continuousWithinAt).mono hsub) (fun s hs => ?_)
        (by rw [hz0, dist_eq_norm]) t' ⟨hlt.le, le_rfl⟩
      · exact (hz s ⟨hs.1, hs.2.le⟩).mono_of_mem_nhdsWithin (Icc_mem_nhdsGE_of_mem hs)
      · exact (hy s (hsub ⟨hs.1, hs.2.le⟩)).mono_of_mem_nhdsWithin
          (Icc_mem_nhdsGE_of_mem ⟨(hsub ⟨hs.1, hs.2.le⟩).1, hs.2.trans_le hT'⟩)
    have hb' := hb (hlt.le.trans hT')
    have hE : Real.exp (L * (t - t0)) * Real.exp (L * (t' - t)) = Real.exp (L * (t' - t0)) := by
      rw [← Real.exp_add]; ring_nf
    have hE1 : 1 ≤ Real.exp (L * (t' - t0)) := Real.one_le_exp (mul_nonneg L.coe_nonneg (by linarith))
    have h3 : ‖u' - y t'‖ ≤ ‖u' - z t'‖ + dist (z t') (y t') := by
      rw [dist_eq_norm]; simpa using norm_add_le (u' - z t') (z t' - y t')
    have h4 : ‖u - y t‖ * Real.exp (L * (t' - t)) ≤ i * B * Real.exp (L * (t' - t0)) := by
      rw [← hE, ← mul_assoc]
      exact mul_le_mul_of_nonneg_right hb' (Real.exp_nonneg _)
    have h5 : B ≤ B * Real.exp (L * (t' - t0)) := le_mul_of_one_le_right hB0 hE1
    push_cast
    linarith

/-! ### A class of fields with reliable estimates -/

/-- The Taylor polynomials of `exp (-w)` at `0` lie alternately above and below it, for `w ≥ 0`. -/
theorem exp_neg_taylor (n : ℕ) : ∀ w : ℝ, 0 ≤ w →
    0 ≤ (-1) ^ (n + 1) * (Real.exp (-w) - ∑ k ∈ Finset.range (n + 1), (-w) ^ k / k.factorial) := by
  induction n with
  | zero =>
    intro w hw
    have : Real.exp (-w) ≤ 1 := Real.exp_le_one_iff.2 (by linarith)
    simpa using this
  | succ n ih =>
    have hd : ∀ w : ℝ, HasDerivAt
        (fun w : ℝ => (-1) ^ (n + 2) * (Real.exp (-w) - ∑ k ∈ Finset.range (n + 2), (-w) ^ k / k.factorial))
        ((-1) ^ (n + 1) * (Real.exp (-w) - ∑ k ∈ Finset.range (n + 1), (-w) ^ k / k.factorial)) w := by
      intro w
      have h1 : HasDerivAt (fun w : ℝ => Real.exp (-w)) (-Real.exp (-w)) w := by
        simpa using (hasDerivAt_neg w).exp
      have h2 : HasDerivAt (fun w : ℝ => ∑ k ∈ Finset.range (n + 2), (-w) ^ k / k.factorial)
          (∑ k ∈ Finset.range (n + 2), (k * (-w) ^ (k - 1) * (-1)) / k.factorial) w :=
        HasDerivAt.fun_sum fun k _ => ((hasDerivAt_neg w).pow k).div_const _
      have h3 : ∑ k ∈ Finset.range (n + 2), ((k : ℝ) * (-w) ^ (k - 1) * (-1)) / k.factorial
          = -∑ k ∈ Finset.range (n + 1), (-w) ^ k / k.factorial := by
        rw [Finset.sum_range_succ', ← Finset.sum_neg_distrib]
        simp only [Nat.cast_zero, zero_mul, zero_div, add_zero]
        refine Finset.sum_congr rfl fun k _ => ?_
        rw [Nat.factorial_succ, Nat.add_sub_cancel]
        push_cast
        have : (k : ℝ) + 1 ≠ 0 := by positivity
        have : (k.factorial : ℝ) ≠ 0 := by positivity
        field_simp
      refine ((h1.sub h2).const_mul _).congr_deriv ?_
      rw [h3, pow_succ]
      ring
    have hmono : MonotoneOn
        (fun w : ℝ => (-1) ^ (n + 2) * (Real.exp (-w) - ∑ k ∈ Finset.range (n + 2), (-w) ^ k / k.factorial)) (Ici 0) :=
      monotoneOn_of_deriv_nonneg (convex_Ici 0) (fun w _ => (hd w).continuousAt.continuousWithinAt)
        (fun w _ => (hd w).differentiableAt.differentiableWithinAt)
        (fun w hw => by rw [(hd w).deriv]; exact ih w (interior_subset hw))
    intro w hw
    refine le_trans (le_of_eq ?_) (hmono (mem_Ici.2 le_rfl) (mem_Ici.2 hw) hw)
    simp [Finset.sum_range_succ']

/-- The error of one step of `dopri5` on `x' = -x` over `w` is at most eight times its error estimate, for every `w`. -/
theorem dopri5_decay_reliable (w : ℝ) (hw : 0 ≤ w) :
    |1 - w + w ^ 2 / 2 - w ^ 3 / 6 + w ^ 4 / 24 - w ^ 5 / 120 + w ^ 6 / 600 - Real.exp (-w)|
      ≤ 8 * |97 / 180000 * w ^ 5 + 13 / 60000 * w ^ 6 + 1 / 36000 * w ^ 7| := by
  have h5 := exp_neg_taylor 5 w hw
  have h6 := exp_neg_taylor 6 w hw
  norm_num [Finset.sum_range_succ, Nat.factorial] at h5 h6
  have p5 : 0 ≤ w ^ 5 := by positivity
  have p6 : 0 ≤ w ^ 6 := by positivity
  have p7 : 0 ≤ w ^ 7 := by positivity
  rw [abs_of_nonneg (a := 97 / 180000 * w ^ 5 + 13 / 60000 * w ^ 6 + 1 / 36000 * w ^ 7) (by positivity), abs_le]
  constructor <;> ring_nf at h5 h6 ⊢ <;> linarith

theorem dopri5_decay_step (args : A) (l : ι → ℝ) (x : ι → ℝ) (t h : ℝ) (k x' e : ι → ℝ) (st : List (ι → ℝ))
    (hst : (dopri5Solver (Except PyErr) ℝ (ι → ℝ) A).step (fun _ x => .ok fun i => -l i * x i) x t h none args
      = .ok (.four k x' e st)) (i : ι) :
    x' i = (1 - l i * h + (l i * h) ^ 2 / 2 - (l i * h) ^ 3 / 6 + (l i * h) ^ 4 / 24 - (l i * h) ^ 5 / 120 + (l i * h) ^ 6 / 600) * x i ∧
      e i = (97 / 180000 * (l i * h) ^ 5 + 13 / 60000 * (l i * h) ^ 6 + 1 / 36000 * (l i * h) ^ 7) * x i := by
  simp only [dopri5Solver, dopri5Step, rk7Step, firstStage, bind, Except.bind, pure, Except.pure] at hst
  injection hst with hst
  injection hst with h1 h2 h3 h4
  subst h2 h3
  constructor
  · simp [constructDopri5, dopri5Bsol, dopri5Bhat, nth, nth2]
    ring
  · simp [constructDopri5, dopri5Bsol, dopri5Bhat, nth, nth2]
    ring

/-- **C120, partial (decaying modes).** On `x_j' = -l_j x_j` with rates `l_j ≥ 0`, however stiff, and for all tolerances, the
estimates of `dopri5` are reliable: the `i`-th state returned with `return_all_eval=True` is within
`8 i √n (atol + rtol · R)` of the exact solution, `R` bounding the computed states. Missing: other fields. -/
theorem C120_decay_partial (args : A) (l : ι → ℝ) (hl : ∀ j, 0 ≤ l j)
    (x : ι → ℝ) (t0 t1 : ℝ) (rest : List ℝ) (hinc : Increasing (t0 :: t1 :: rest)) (atol rtol : ℝ) (ha : 0 < atol) (hr : 0 ≤ rtol)
    (saveAt : List ℝ) (fuel : ℕ) (ts : List ℝ) (xs : List (ι → ℝ))
    (h : odeint fuel (pureField fun _ x j => -l j * x j) x (t0 :: t1 :: rest) (dopri5Solver (Except PyErr) ℝ (ι → ℝ) A) atol rtol
      false true saveAt args Finset.univ = .ok (some (ts, xs)))
    (R : ℝ) (hR : ∀ z ∈ xs, ‖z‖ ≤ R) (i : ℕ) (t : ℝ) (u : ι → ℝ) (ht : ts[i]? = some t) (hu : xs[i]? = some u) :
    ‖u - fun j => x j * Real.exp (-(l j * (t - t0)))‖ ≤ i * (8 * (Real.sqrt (Fintype.card ι) * (atol + rtol * R))) := by
  have hs := dopri5_fsalSolver (ι := ι) args
  have hchain := C23_all_eval_consecutive hs _ x t0 t1 rest hinc atol rtol false (Or.inl rfl) saveAt Finset.univ fuel ts xs h
  obtain ⟨h0, h0', hlen, -⟩ := C22_accepted hs _ x t0 t1 rest hinc atol rtol false true (Or.inl rfl) saveAt Finset.univ fuel ts xs h
  set B := 8 * (Real.sqrt (Fintype.card ι) * (atol + rtol * R)) with hB
  have hR0 : 0 ≤ R := (norm_nonneg _).trans (hR x (List.mem_of_getElem? h0'))
  have hB0 : 0 ≤ B := by positivity
  induction i generalizing t u with
  | zero =>
    rw [h0] at ht; rw [h0'] at hu
    cases ht; cases hu
    simp
  | succ i ih =>
    rename' t => t', u => u', ht => ht', hu => hu'
    obtain ⟨hi1, -⟩ := List.getElem?_eq_some_iff.1 hu'
    have e1 := List.getElem?_eq_getElem (l := xs) (i := i) (by omega)
    have e2 := List.getElem?_eq_getElem (l := ts) (i := i) (by omega)
    generalize xs[i] = u at e1
    generalize ts[i] = t at e2
    have hb := ih t u e2 e1
    have hstep : AcceptedStep (dopri5Solver (Except PyErr) ℝ (ι → ℝ) A) args (fun _ x j => -l j * x j) Finset.univ atol rtol
        (t, u) (t', u') := by
      have hz := (List.isChain_iff_getElem.1 hchain) i (by simp; omega)
      have a1 : (ts.zip xs)[i]? = some (t, u) := by simp [List.getElem?_zip_eq_some, e1, e2]
      have a2 : (ts.zip xs)[i + 1]? = some (t', u') := by simp [List.getElem?_zip_eq_some, ht', hu']
      rw [(List.getElem?_eq_some_iff.1 a1).2, (List.getElem?_eq_some_iff.1 a2).2] at hz
      exact hz
    obtain ⟨hlt, k, e, st, hst, hnorm⟩ := hstep
    simp only at hlt hst hnorm
    have he := errorNorm_le_one_bound atol rtol R ha hr u u' e (hR u (List.mem_of_getElem? e1))
      (hR u' (List.mem_of_getElem? hu')) hnorm
    have hi0 : 0 ≤ ((i + 1 : ℕ) : ℝ) * B := by positivity
    refine (pi_norm_le_iff_of_nonneg hi0).2 fun j => ?_
    obtain ⟨s1, s2⟩ := dopri5_decay_step args l u t (t' - t) k u' e st hst j
    set w := l j * (t' - t) with hw
    have hw0 : 0 ≤ w := mul_nonneg (hl j) (by linarith)
    have hrel := dopri5_decay_reliable w hw0
    have hexp : Real.exp (-(l j * (t' - t0))) = Real.exp (-w) * Real.exp (-(l j * (t - t0))) := by
      rw [← Real.exp_add, hw]; ring_nf
    have hj := (norm_le_pi_norm (u - fun j => x j * Real.exp (-(l j * (t - t0)))) j).trans hb
    rw [Pi.sub_apply, Real.norm_eq_abs] at hj ⊢
    have hle1 : Real.exp (-w) ≤ 1 := Real.exp_le_one_iff.2 (by linarith)
    have hsplit : u' j - x j * Real.exp (-(l j * (t' - t0)))
        = (1 - w + w ^ 2 / 2 - w ^ 3 / 6 + w ^ 4 / 24 - w ^ 5 / 120 + w ^ 6 / 600 - Real.exp (-w)) * u j
          + Real.exp (-w) * (u j - x j * Real.exp (-(l j * (t - t0)))) := by
      rw [s1, hexp]; ring
    have hej : 8 * |97 / 180000 * w ^ 5 + 13 / 60000 * w ^ 6 + 1 / 36000 * w ^ 7| * |u j| ≤ B := by
      have := (norm_le_pi_norm e j).trans he
      rw [s2, Real.norm_eq_abs, abs_mul] at this
      rw [hB, mul_assoc]
      linarith
    calc |u' j - x j * Real.exp (-(l j * (t' - t0)))|
        ≤ |1 - w + w ^ 2 / 2 - w ^ 3 / 6 + w ^ 4 / 24 - w ^ 5 / 120 + w ^ 6 / 600 - Real.exp (-w)| * |u j|
          + Real.exp (-w) * |u j - x j * Real.exp (-(l j * (t - t0)))| := by
          rw [hsplit]
          refine (abs_add_le _ _).trans (le_of_eq ?_)
          rw [abs_mul, abs_mul, abs_of_pos (Real.exp_pos _)]
      _ ≤ B + 1 * (i * B) :=
          add_le_add ((mul_le_mul_of_nonneg_right hrel (abs_nonneg _)).trans hej)
            (mul_le_mul hle1 hj (abs_nonneg _) zero_le_one)
      _ = ((i + 1 : ℕ) : ℝ) * B := by push_cast; ring

/-- The runs of `C120_decay_partial` and `C120_reliable_partial` exist: two modes with rates `1` and `1000`. -/
example : ∃ fuel ts xs, odeint fuel (pureField fun _ (x : Fin 2 → ℝ) j => -(![1, 1000] : Fin 2 → ℝ) j * x j) (fun _ => 1) [0, 1, 3]
    (dopri5Solver (Except PyErr) ℝ (Fin 2 → ℝ) Unit) (1 / 1000) (1 / 1000) false true [] () Finset.univ = .ok (some (ts, xs)) := by
  refine C27_terminates_dopri5_linear () _ 0 1000 le_rfl (by norm_num) ?_ _ 0 1 [3] (by simp [Increasing]) _ _ (by norm_num)
    (by norm_num) false true [] _
  intro t x
  rw [zero_add]
  refine (pi_norm_le_iff_of_nonneg (by positivity)).2 fun j => ?_
  rw [norm_mul]
  refine mul_le_mul ?_ (norm_le_pi_norm x j) (norm_nonneg _) (by norm_num)
  fin_cases j <;> norm_num

end Torchdyn
