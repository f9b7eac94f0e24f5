import Verif.Props.FixedStep
import Verif.Props.AdaptiveMore
import Verif.Props.AdaptiveTermination
import Verif.Props.IntegralLoss
import Verif.Props.Seminorm
import Verif.Props.SymplecticReversed
import Verif.Props.Symmetry

/-!
Further cases of earlier claims: asynchronous leapfrog over grids (C09), splitting on decreasing grids (C16), the times at
which the vector field is evaluated (C24), shifted decreasing grids (C92), polynomial fields on decreasing grids (C30), the loss column under adaptive solvers
(C53).
-/

set_option linter.unusedSectionVars false
set_option linter.unusedSimpArgs false

namespace Torchdyn

open Spec

/-! ### C09 over grids -/

/-- **C09**, over any grid: the leapfrog run over `ts`, followed by a run over the reversed grid (which integrates the negated
field) from its end point with negated velocity, ends in the start point with negated velocity. -/
theorem C09_alf_grid {ι : Type} [Fintype ι] (fuel : Nat) (f : ℝ → (ι → ℝ) → ι → ℝ) (x v : ι → ℝ) (ts : List ℝ)
    (hinc : ts.Pairwise (· < ·)) (hlen : 2 ≤ ts.length) (hsep : Separated ts) (atol rtol : ℝ) (all : Bool) :
    ∃ sol xe ve back, odeintSymplecticAlf (m := Except PyErr) fuel (pureField f) (some 1) (x, v) ts false atol rtol all [] =
        .ok (some (ts, sol)) ∧ sol.getLast? = some (xe, ve) ∧
      odeintSymplecticAlf (m := Except PyErr) fuel (pureField f) (some 1) (xe, -ve) ts.reverse false atol rtol all [] =
        .ok (some (ts.reverse.map (fun t => -t), back)) ∧ back.getLast? = some (x, -v) := by
  obtain ⟨sol, xe, ve, h1, h2, h3⟩ := C85_leapfrog_retrace_partial fuel f (x, v) ts hinc hlen hsep atol rtol all
  refine ⟨sol, xe, ve, _, h1, h2, h3, ?_⟩
  obtain ⟨t0, t1, rest, rfl⟩ : ∃ t0 t1 rest, ts = t0 :: t1 :: rest := by
    match ts, hlen with
    | t0 :: t1 :: rest, _ => exact ⟨t0, t1, rest, rfl⟩
  obtain ⟨sol', h1', h2'⟩ := C69_fixed_partial fuel f (x, v) t0 t1 rest
    ((List.pairwise_cons.1 hinc).1 t1 (by simp)).le hsep atol rtol all
  rw [h1] at h1'
  cases h1'
  rw [List.map_reverse, List.getLast?_reverse, List.head?_map, List.head?_eq_getElem?, h2'.start]
  rfl

/-! ### C16 on decreasing grids -/

section

variable {K V A : Type} [Field K] [LinearOrder K] [IsStrictOrderedRing K] [AddCommGroup V]

/-- On a decreasing grid `odeint` is the reversed problem on the negated grid. -/
theorem odeintFixed_reversed {f : K → V → V} {solver : Solver (Except PyErr) K V A} {args : A}
    (x : V) (t0 t1 : K) (rest saveAt : List K) (hdir : t1 < t0) :
    odeintFixed (pureField f) x (t0 :: t1 :: rest) solver saveAt args =
      odeintFixed (pureField (fun t x => -f (-t) x)) x (-t0 :: -t1 :: rest.map (fun t => -t)) solver saveAt args := by
  rw [odeintFixed_backward _ _ _ hdir, odeintFixed_forward _ _ _ (neg_le_neg hdir.le)]
  rfl

/-- **C16** on decreasing grids. The states of the two parts are joined in the same way; all returned times are negated
(C17). -/
theorem C16_split_backward {f : K → V → V} {solver : Solver (Except PyErr) K V A} {args : A}
    {φ : V → K → K → V} (hs : SteppedBy solver (fun t x => -f (-t) x) args φ) (x : V)
    (t0 t1 : K) (pre : List K) (s s1 : K) (post : List K)
    (hpre : t0 :: t1 :: pre = (t0 :: t1 :: pre).dropLast ++ [s])
    (hdir : t1 < t0) (hdir' : s1 < s) (hsep : Separated ((t0 :: t1 :: pre) ++ s1 :: post)) :
    ∃ sol₁ xs sol₂,
      odeintFixed (pureField f) x (t0 :: t1 :: pre) solver [] args =
        .ok ((t0 :: t1 :: pre).map (fun t => -t), sol₁) ∧
      sol₁.getLast? = some xs ∧
      odeintFixed (pureField f) xs (s :: s1 :: post) solver [] args =
        .ok ((s :: s1 :: post).map (fun t => -t), sol₂) ∧
      odeintFixed (pureField f) x ((t0 :: t1 :: pre) ++ s1 :: post) solver [] args =
        .ok (((t0 :: t1 :: pre) ++ s1 :: post).map (fun t => -t), sol₁ ++ sol₂.tail) := by
  have hp : -t0 :: -t1 :: pre.map (fun t => -t) = (-t0 :: -t1 :: pre.map (fun t => -t)).dropLast ++ [-s] := by
    have := congrArg (List.map (fun t => -t)) hpre
    rw [List.map_append, List.map_dropLast] at this
    exact this
  have hsep' : Separated ((-t0 :: -t1 :: pre.map (fun t => -t)) ++ -s1 :: post.map (fun t => -t)) := by
    have := (separated_neg _).2 hsep
    rw [List.map_append] at this
    exact this
  obtain ⟨sol₁, xs, sol₂, h1, h2, h3, h4⟩ := C16_split hs x (-t0) (-t1) (pre.map (fun t => -t)) (-s) (-s1)
    (post.map (fun t => -t)) hp (neg_le_neg hdir.le) (neg_le_neg hdir'.le) hsep'
  refine ⟨sol₁, xs, sol₂, ?_, h2, ?_, ?_⟩
  · rw [odeintFixed_reversed _ _ _ _ _ hdir]
    exact h1
  · rw [odeintFixed_reversed _ _ _ _ _ hdir']
    exact h3
  · simp only [List.cons_append] at h4 ⊢
    rw [odeintFixed_reversed _ _ _ _ _ hdir, List.map_append]
    simp only [List.map_cons, List.map_append]
    exact h4

end

/-- Splitting `[3, 2, 1, 0]` at `2` for `x' = x`, with the explicit Euler method. -/
example : ∃ sol₁ xs sol₂,
    odeintFixed (pureField (fun (_ : ℚ) (y : ℚ) => y)) 1 [3, 2] (eulerSolver (Except PyErr) ℚ ℚ Unit) [] () =
      .ok ([-3, -2], sol₁) ∧ sol₁.getLast? = some xs ∧
    odeintFixed (pureField (fun (_ : ℚ) (y : ℚ) => y)) xs [2, 1, 0] (eulerSolver (Except PyErr) ℚ ℚ Unit) [] () =
      .ok ([-2, -1, 0], sol₂) ∧
    odeintFixed (pureField (fun (_ : ℚ) (y : ℚ) => y)) 1 [3, 2, 1, 0] (eulerSolver (Except PyErr) ℚ ℚ Unit) [] () =
      .ok ([-3, -2, -1, 0], sol₁ ++ sol₂.tail) := by
  have := C16_split_backward (f := fun (_ : ℚ) (y : ℚ) => y) (euler_steppedBy _ ()) (1 : ℚ) 3 2 [] 2 1 [0] rfl
    (by norm_num) (by norm_num) (by unfold Separated Close; norm_num [abs_of_pos])
  simpa using this

/-! ### C24: where the vector field is evaluated -/

section

variable {ι A : Type}

theorem rk7_window_subset (tab : Tableau ℝ) (hc : ∀ i < 6, 0 ≤ nth tab.c i ∧ nth tab.c i ≤ 1)
    (f : ℝ → (ι → ℝ) → (ι → ℝ)) (x : ι → ℝ) (a b t dt : ℝ) (hdt : 0 ≤ dt) (ha : a ≤ t) (hb : t + dt ≤ b)
    (k1 : Option (ι → ℝ)) (args : A) :
    rk7Step tab (windowField a b f) x t dt k1 args = rk7Step tab (pureField f) x t dt k1 args := by
  have hw : ∀ c, 0 ≤ c ∧ c ≤ 1 → ∀ y, windowField a b f (t + c * dt) y = pureField f (t + c * dt) y := by
    intro c hc y
    unfold windowField
    rw [if_pos]
    · rfl
    · exact ⟨by nlinarith [mul_nonneg hc.1 hdt], by nlinarith [hc.2]⟩
  have hf : firstStage (windowField a b f) x t k1 = firstStage (pureField f) x t k1 := by
    cases k1 with
    | some k => rfl
    | none =>
      have := hw 0 ⟨le_refl _, zero_le_one⟩ x
      simpa [firstStage] using this
  simp only [rk7Step, hf, hw _ (hc 0 (by norm_num)), hw _ (hc 1 (by norm_num)),
    hw _ (hc 2 (by norm_num)), hw _ (hc 3 (by norm_num)), hw _ (hc 4 (by norm_num)),
    hw _ (hc 5 (by norm_num))]

theorem libSolver_window (tsit : Bool) (f : ℝ → (ι → ℝ) → (ι → ℝ)) (x : ι → ℝ) (a b t dt : ℝ) (hdt : 0 ≤ dt)
    (ha : a ≤ t) (hb : t + dt ≤ b) (k1 : Option (ι → ℝ)) (args : A) :
    (libSolver tsit ι A).step (windowField a b f) x t dt k1 args =
      (libSolver tsit ι A).step (pureField f) x t dt k1 args := by
  cases tsit with
  | true =>
    refine rk7_window_subset (constructTsit5 ℝ) ?_ f x a b t dt hdt ha hb k1 args
    intro i hi
    interval_cases i <;> norm_num [constructTsit5, nth]
  | false =>
    refine rk7_window_subset (constructDopri5 ℝ) ?_ f x a b t dt hdt ha hb k1 args
    intro i hi
    interval_cases i <;> norm_num [constructDopri5, nth]

/-- The trial step of the model of `init_step`. -/
theorem trialStep_eq [Fintype ι] (f0 x0 : ι → ℝ) (atol rtol : ℝ) :
    initTrial (hairerNorm (fun i => x0 i / (atol + |x0 i| * rtol)))
      (hairerNorm (fun i => f0 i / (atol + |x0 i| * rtol))) = trialStep f0 x0 atol rtol := by
  have e : ∀ y : ι → ℝ, hairerNorm (fun i => y i / (atol + |x0 i| * rtol)) =
      errorNorm Finset.univ atol rtol x0 x0 y := by
    intro y
    simp only [hairerNorm, hairerNormOn, errorNorm, sq_abs, max_self, mul_comm rtol]
  simp only [e, trialStep, initTrial, mul_div_assoc]

/-- **C24**, evaluations of the whole call: when the trial point of `init_step` lies in the span, adaptive `odeint` evaluates
the vector field only at times between `t_span[0]` and `t_span[-1]`: a field that raises elsewhere gives the same result. -/
theorem C24_evaluations_partial [Fintype ι] (tsit : Bool) (f : ℝ → (ι → ℝ) → (ι → ℝ)) (x : ι → ℝ) (t0 t1 T : ℝ)
    (rest : List ℝ) (hinc : Increasing (t0 :: t1 :: rest)) (hT : (t0 :: t1 :: rest).getLast? = some T) (atol rtol : ℝ)
    (htrial : t0 + trialStep (f t0 x) x atol rtol ≤ T) (ui rae : Bool) (saveAt : List ℝ) (args : A) (sel : Finset ι)
    (fuel : ℕ) :
    odeint fuel (windowField t0 T f) x (t0 :: t1 :: rest) (libSolver tsit ι A) atol rtol ui rae saveAt args sel =
      odeint fuel (pureField f) x (t0 :: t1 :: rest) (libSolver tsit ι A) atol rtol ui rae saveAt args sel := by
  have hs : FsalSolver (libSolver tsit ι A) args := by
    cases tsit
    · exact dopri5_fsalSolver args
    · exact tsit5_fsalSolver args
  have hlt : t0 < t1 := (List.pairwise_cons.1 hinc).1 t1 (by simp)
  have hT1 : t0 < T := (List.pairwise_cons.1 hinc).1 T (by
    rw [getLast?_cons_cons] at hT
    exact List.mem_of_getLast? hT)
  obtain ⟨dt, hdt, hi, e⟩ := odeint_forward fuel f x rest (libSolver tsit ι A) hs.adaptive atol rtol ui rae saveAt
    args sel hlt.le
  have hk : windowField t0 T f t0 x = .ok (f t0 x) := if_pos ⟨le_refl _, hT1.le⟩
  have hi' : initStep (windowField t0 T f) (f t0 x) x t0 (libSolver tsit ι A).order atol rtol = .ok dt := by
    rw [← hi]
    have htr := trialStep_eq (f t0 x) x atol rtol
    have hw : ∀ y, windowField t0 T f (t0 + trialStep (f t0 x) x atol rtol) y =
        pureField f (t0 + trialStep (f t0 x) x atol rtol) y := by
      intro y
      refine if_pos ⟨?_, htrial⟩
      have : 0 < trialStep (f t0 x) x atol rtol := by
        rw [← htr]
        exact initTrial_pos _ _
      linarith
    simp only [initStep, htr, hw]
  rw [e]
  obtain ⟨out, ho1, ho2, ho3, had⟩ := hs.out f atol rtol sel (odeintInterp (libSolver tsit ι A) ui) rae
  have h := adaptiveOdeint_congr_step ho1 had hinc hdt (f t0 x) x
    (by rwa [getLast?_cons_cons] at hT)
    (fun x t dt k1 => (libSolver tsit ι A).step (windowField t0 T f) x t dt (some k1) args)
    (fun x t dt k1 h1 h2 h3 _ => libSolver_window tsit f x t0 T t dt h1.le h2 h3 (some k1) args) fuel
  rw [← h]
  simp only [odeint, odeintDirection, getItem, List.getElem?_cons_succ,
    List.getElem?_cons_zero, pure_bind, if_neg (not_lt.2 hlt.le), hs.adaptive, if_true, hk]
  simp only [bind, Except.bind, hi']
  rfl

/-- Non-vacuity of `C24_evaluations_partial`: from the zero state the trial point is `t0 + 10⁻⁶`, whatever the field. -/
example (f : ℝ → (Unit → ℝ) → (Unit → ℝ)) (fuel : ℕ) :
    odeint fuel (windowField 0 2 f) 0 [0, 1, 2] (libSolver true Unit (Option Unit)) (1 / 1000) (1 / 1000) true false [] default
        Finset.univ =
      odeint fuel (pureField f) 0 [0, 1, 2] (libSolver true Unit (Option Unit)) (1 / 1000) (1 / 1000) true false [] default
        Finset.univ := by
  refine C24_evaluations_partial true f 0 0 1 2 [2] (by simp [Increasing]) rfl _ _ ?_ _ _ _ _ _ _
  have : trialStep (f 0 0) 0 (1 / 1000) (1 / 1000) = 1 / 10 ^ 6 := by
    refine if_pos (Or.inl ?_)
    simp [errorNorm]
  rw [this]
  norm_num

/-- **C24 is false of the code** for the evaluation in `init_step`: on `x' = 1`, `x(0) = 1000` over `[0, 1]` with the default
tolerances `odeint` evaluates the field at time `10`; a field that is only defined on `[0, 1]` raises. -/
theorem C24_trial_point_refuted (tsit ui rae : Bool) (saveAt : List ℝ) (args : A) (fuel : ℕ) :
    odeint fuel (windowField 0 1 (fun _ _ _ => 1)) (fun _ : Unit => 1000) [0, 1] (libSolver tsit Unit A) (1 / 1000)
      (1 / 1000) ui rae saveAt args Finset.univ = .error .runtimeError := by
  have hadp : (libSolver tsit Unit A).adaptive = true := by cases tsit <;> rfl
  have hk : windowField 0 1 (fun _ _ _ => 1) 0 (fun _ : Unit => 1000) = .ok (fun _ => 1) :=
    if_pos ⟨le_refl _, zero_le_one⟩
  have htr : initTrial (hairerNorm (fun _ : Unit => (1000 : ℝ) / (1 / 1000 + |(1000 : ℝ)| * (1 / 1000))))
      (hairerNorm (fun _ : Unit => (1 : ℝ) / (1 / 1000 + |(1000 : ℝ)| * (1 / 1000)))) = 10 := by
    simp only [hairerNorm, hairerNormOn, Finset.univ_unique, Finset.sum_singleton, Finset.card_singleton, Nat.cast_one,
      div_one, Real.sqrt_sq_eq_abs, abs_abs, initTrial]
    rw [abs_of_pos (by norm_num : (0 : ℝ) < 1000)]
    norm_num [abs_of_pos]
  have hw : ∀ y : Unit → ℝ, windowField 0 1 (fun _ _ _ => 1) (0 + 10) y = .error .runtimeError := by
    intro y
    refine if_neg ?_
    norm_num
  have hi : ∀ order, initStep (windowField 0 1 (fun _ _ _ => 1)) (fun _ => 1) (fun _ : Unit => 1000) 0 order (1 / 1000)
      (1 / 1000) = .error .runtimeError := by
    intro order
    simp only [initStep, htr, hw]
    rfl
  simp only [odeint, odeintDirection, getItem, List.getElem?_cons_succ,
    List.getElem?_cons_zero, pure_bind, if_neg (not_lt.2 (zero_le_one : (0 : ℝ) ≤ 1)), hadp, if_true, hk]
  simp only [bind, Except.bind, hi]

end

/-! ### C92 for the fixed-step solvers on decreasing grids -/

/-- **C92**, euler, midpoint and rk4 on decreasing grids (where the returned times are negated, C17). -/
theorem C92_fixed_backward {K V A : Type} [Field K] [LinearOrder K] [IsStrictOrderedRing K] [AddCommGroup V] [Module K V]
    (f : K → V → V) (c : K) (x : V) (t0 t1 : K) (rest : List K) (hd : t1 < t0)
    (hsep : Separated ((t0 :: t1 :: rest).map (- ·))) (hsep' : Separated ((t0 :: t1 :: rest).map (fun t => -(t + c))))
    (args : A) (solver : Solver (Except PyErr) K V A)
    (hsolver : solver = eulerSolver (Except PyErr) K V A ∨ solver = midpointSolver (Except PyErr) K V A ∨
      solver = rk4Solver (Except PyErr) K V A) :
    odeintFixed (pureField (fun t x => f (t - c) x)) x ((t0 :: t1 :: rest).map (· + c)) solver [] args =
      (odeintFixed (pureField f) x (t0 :: t1 :: rest) solver [] args).map (fun r => (r.1.map (· + -c), r.2)) := by
  have e : ∀ t : K, -(t + c) = -t + -c := fun t => by ring
  have h := C92_fixed (fun t x => -f (-t) x) (-c) x (-t0) (-t1) (rest.map (fun t => -t)) (neg_le_neg hd.le)
    (by simpa using hsep) (by simpa [e, Function.comp_def] using hsep') args solver hsolver
  rw [odeintFixed_reversed x t0 t1 rest [] hd, ← h]
  simp only [List.map_cons]
  rw [odeintFixed_reversed x _ _ _ [] (by linarith)]
  simp only [List.map_map, e, Function.comp_def]
  have e' : ∀ t : K, -t - c = -(t - -c) := fun t => by ring
  simp only [e']

/-- Non-vacuity of `C92_fixed_backward`. -/
example : Separated (([3, 1, 0] : List ℚ).map (- ·)) ∧ Separated (([3, 1, 0] : List ℚ).map (fun t => -(t + 5))) := by
  constructor <;> rw [← assert_iff_separated] <;> decide +kernel

/-! ### C30 on decreasing grids -/

section

variable {ι A : Type} [Fintype ι]

/-- **C30** on decreasing grids: the returned times are negated, the states are the exact solution at the times of the call. -/
theorem C30_poly_exact_backward (args : A) (c : ℕ → ι → ℝ) (x : ι → ℝ)
    (t0 t1 : ℝ) (rest : List ℝ) (hdec : (t0 :: t1 :: rest).Pairwise (· > ·)) (atol rtol : ℝ)
    (rae : Bool) (saveAt : List ℝ) (sel : Finset ι) (fuel : ℕ) (ts : List ℝ) (xs : List (ι → ℝ))
    (h : odeint fuel (pureField (fun s _ => polyField 4 c s)) x (t0 :: t1 :: rest)
      (dopri5Solver (Except PyErr) ℝ (ι → ℝ) A) atol rtol false rae saveAt args sel
      = .ok (some (ts, xs))) (i : ℕ) (t : ℝ) (y : ι → ℝ) (ht : ts[i]? = some (-t))
    (hy : xs[i]? = some y) : y = x + polyIntegral 4 c t0 t := by
  obtain ⟨h0, h1, hl, h2⟩ := C22_accepted_backward (dopri5_fsalSolver args) _ x t0 t1 rest hdec atol rtol false
    rae (Or.inl rfl) saveAt sel fuel ts xs h
  have hf : (fun (s : ℝ) (_ : ι → ℝ) => -polyField 4 c (-s)) = fun s _ => polyField 4 (fun j => (-1 : ℝ) ^ (j + 1) • c j) s := by
    funext s _
    simp only [polyField, ← Finset.sum_neg_distrib, smul_smul]
    refine Finset.sum_congr rfl fun j _ => ?_
    rw [← neg_smul]
    congr 1
    rw [neg_pow]
    ring
  have hI : ∀ a b : ℝ, polyIntegral 4 (fun j => (-1 : ℝ) ^ (j + 1) • c j) a b = polyIntegral 4 c (-a) (-b) := by
    intro a b
    simp only [polyIntegral, smul_smul]
    refine Finset.sum_congr rfl fun j _ => ?_
    congr 1
    rw [neg_pow b, neg_pow a]
    ring
  rw [hf] at h2
  have hreach : ∀ p q : Point ι, Reached (dopri5Solver (Except PyErr) ℝ (ι → ℝ) A) args
      (fun s _ => polyField 4 (fun j => (-1 : ℝ) ^ (j + 1) • c j) s) sel atol rtol p q →
      q.2 = p.2 + polyIntegral 4 c (-p.1) (-q.1) := by
    intro p q hpq
    induction hpq with
    | refl => simp [polyIntegral]
    | tail _ hbc ih =>
      rw [dopri5_accepted_poly args _ sel atol rtol _ _ hbc, ih, hI, add_assoc, polyIntegral_add]
  have key : ∀ (i : ℕ) (s : ℝ) (y : ι → ℝ), ts[i]? = some s → xs[i]? = some y → y = x + polyIntegral 4 c t0 (-s) := by
    intro i
    induction i with
    | zero =>
      intro s y ht hy
      rw [h0] at ht
      rw [h1] at hy
      cases ht; cases hy
      simp [polyIntegral]
    | succ i ih =>
      intro s y ht hy
      obtain ⟨a1, a2⟩ := List.getElem?_eq_some_iff.1 ht
      have b1 : i < ts.length := by omega
      have b2 : i < xs.length := by omega
      have e := hreach _ _ (h2 i ts[i] xs[i] s y (List.getElem?_eq_getElem b1)
        (List.getElem?_eq_getElem b2) ht hy)
      rw [ih _ _ (List.getElem?_eq_getElem b1) (List.getElem?_eq_getElem b2)] at e
      simp only at e
      rw [e, add_assoc, polyIntegral_add]
  have := key i (-t) y ht hy
  rwa [neg_neg] at this

/-- Non-vacuity of `C30_poly_exact_backward`: a run over a decreasing grid that returns. -/
example : ∃ fuel ts xs, odeint fuel (pureField (fun s _ => polyField 4 (fun j => if j = 0 then fun _ : Unit => 3 else 0) s))
    0 [2, 1, 0] (dopri5Solver (Except PyErr) ℝ (Unit → ℝ) Unit) (1 / 1000) (1 / 1000) false false [] () Finset.univ =
      .ok (some (ts, xs)) := by
  refine C27_terminates_backward (dopri5_fsalSolver ()) _
    (fun f M hM x t dt k1 k x' e st hk hdt h i =>
      rk7_errorLinear (args := ()) (constructDopri5 ℝ) f M hM x t dt k1 k x' e st hk hdt h i)
    (by norm_num [dopri5Solver]) rfl rfl rfl _ 3 ?_ _ 2 1 [0] (by simp) _ _ (by norm_num) (by norm_num) _ _ _ _
  intro t x i
  simp [polyField, Finset.sum_range_succ]

end

/-! ### C53: the loss column under an adaptive solver -/

/-- **C53 is false** for the adaptive solvers. The field `x' = 0` is integrated without loss; with the integral loss
`l(t, x) = 1/t²` (`0` at `t = 0`), which the dynamics do not depend on, the same call never returns: every step is rejected
because of the error of the loss column. -/
theorem C53_adaptive_refuted :
    ∃ (vf : Obj ℝ ℝ Unit) (loss : ℝ → List ℝ → Except PyErr (LossOut ℝ)) (l : ℝ → (Fin 1 → ℝ) → ℝ),
      LossSetting () vf loss 1 (fun _ _ => 0) l ∧
      (∃ fuel r, odeint fuel ((Obj.defunc vf 1 none (some "autograd") 0).field () 1) (fun _ => 0) [0, 1]
        (dopri5Solver (Except PyErr) ℝ (Fin 1 → ℝ) Unit) (1 / 1000) (1 / 1000) false false [] () Finset.univ =
          .ok (some r)) ∧
      ∀ fuel, odeint fuel ((Obj.defunc vf 1 (some loss) (some "autograd") 0).field () 2) (fun _ => 0) [0, 1]
        (dopri5Solver (Except PyErr) ℝ (Fin 2 → ℝ) Unit) (1 / 1000) (1 / 1000) false false [] () Finset.univ =
          .ok none := by
  set vf : Obj ℝ ℝ Unit := Obj.base (.fn ⟨[⟨"x", false⟩], false, fun _ _ => .ok [0]⟩) false 0 with hvf
  set l : ℝ → (Fin 1 → ℝ) → ℝ := fun t _ => singularField t 0 () with hl
  set loss : ℝ → List ℝ → Except PyErr (LossOut ℝ) := fun t _ => .ok (.vec (singularField t 0 ())) with hloss
  have hset : LossSetting () vf loss 1 (fun _ _ => 0) l :=
    ⟨rfl, fun _ _ => rfl, fun _ _ => rfl, fun _ _ => rfl⟩
  refine ⟨vf, loss, l, hset, ?_, ?_⟩
  · have hf : (Obj.defunc vf 1 none (some "autograd") 0).field () 1 = pureField (fun _ _ => 0) := by
      funext t x
      exact plain_field hset _ 0 t x
    rw [hf]
    obtain ⟨fuel, ts, xs, h⟩ := C27_terminates_dopri5 () (fun _ _ => (0 : Fin 1 → ℝ)) 0 (by simp) (fun _ => 0) 0 1 []
      (by simp [Increasing]) (1 / 1000) (1 / 1000) (by norm_num) (by norm_num) false false [] Finset.univ
    exact ⟨fuel, _, h⟩
  · intro fuel
    have hf : (Obj.defunc vf 1 (some loss) (some "autograd") 0).field () 2 =
        pureField (fun t _ => Fin.cons (singularField t 0 ()) (fun _ => 0)) := by
      funext t z
      exact loss_field hset 0 t z
    rw [hf]
    refine C28_diverges_when_rejected (dopri5_fsalSolver ()) _ _ 0 1 1 []
      (by simp [Increasing]) rfl _ _ _ _ _ _ ?_ fuel
    intro dt k x' e st hdt hle hstep
    set F : ℝ → (Fin 2 → ℝ) → Fin 2 → ℝ := fun t _ => Fin.cons (singularField t 0 ()) (fun _ => 0) with hF
    set φ : (Fin 2 → ℝ) →ₗ[ℝ] (Unit → ℝ) := LinearMap.funLeft ℝ ℝ (fun _ => 0) with hφ
    have hcom : ∀ t x, φ (F t x) = singularField t (φ x) := by
      intro t x
      rfl
    have h := libSolver_step false φ F singularField hcom (fun _ => 0) 0 dt (F 0 (fun _ => 0)) ()
    have h1 : (libSolver false (Fin 2) Unit).step (pureField F) (fun _ => 0) 0 dt (some (F 0 (fun _ => 0))) () =
        .ok (.four k x' e st) := by
      rw [← hstep]
      exact (dopri5_fsalSolver ()).first_stage F (fun _ => 0) 0 dt
    rw [h1] at h
    have h2 : (dopri5Solver (Except PyErr) ℝ (Unit → ℝ) Unit).step (fun t x => .ok (singularField t x)) 0 0 dt none () =
        .ok (.four (φ k) (φ x') (φ e) (st.map φ)) := by
      rw [← (dopri5_fsalSolver ()).first_stage singularField 0 0 dt]
      exact h
    have h3 := singular_step_error hdt (by linarith) h2
    unfold errorNorm
    rw [Real.lt_sqrt (by norm_num), Fin.sum_univ_two]
    simp only [Finset.card_univ, Fintype.card_fin]
    have h4 : (4 : ℝ) < (e 0 / (1 / 1000 + 1 / 1000 * max |(0 : ℝ)| |x' 0|)) ^ 2 := by
      have h5 : 2 < |e 0 / (1 / 1000 + 1 / 1000 * max |(0 : ℝ)| |x' 0|)| := by
        rw [abs_div, abs_of_pos (a := 1 / 1000 + 1 / 1000 * max |(0 : ℝ)| |x' 0|) (by positivity)]
        exact h3
      rw [← sq_abs]
      nlinarith
    have h6 := sq_nonneg (e 1 / (1 / 1000 + 1 / 1000 * max |(0 : ℝ)| |x' 1|))
    norm_num at h4 h6 ⊢
    linarith

end Torchdyn
