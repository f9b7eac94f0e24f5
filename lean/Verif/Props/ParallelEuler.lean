import Verif.Model.ParallelEuler
import Verif.Spec.Flow
import Mathlib.Analysis.Calculus.MeanValue
import Mathlib.Analysis.Normed.Group.Constructions
import Mathlib.Topology.MetricSpace.Contracting
import Mathlib.Analysis.SpecialFunctions.ExpDeriv
import Mathlib.Analysis.Calculus.Deriv.Prod
import Mathlib.Tactic.Module
import Mathlib.Tactic.Linarith
import Mathlib.Tactic.NormNum

/-!
Property C88: the parallel implicit Euler solver.
-/

set_option linter.unusedSectionVars false
set_option linter.unusedSimpArgs false

namespace Spec

/-- The states `zs` follow `y` by implicit Euler steps of the field `f` along the grid: each satisfies
`z = y + (t' - t) f(t', z)` with its predecessor `y`. -/
def ImplicitSteps {K V : Type} [Sub K] [Add V] [SMul K V] (f : K → V → V) : V → List K → List V → Prop
  | y, t :: t' :: ts, z :: zs => z = y + (t' - t) • f t' z ∧ ImplicitSteps f z (t' :: ts) zs
  | _, [_], [] => True
  | _, _, _ => False

/-- Same as `ImplicitSteps`, up to an error of norm at most `δ` in every equation. -/
def ImplicitStepsUpTo {V : Type} [NormedAddCommGroup V] [NormedSpace ℝ V] (f : ℝ → V → V) (δ : ℝ) :
    V → List ℝ → List V → Prop
  | y, t :: t' :: ts, z :: zs => ‖z - (y + (t' - t) • f t' z)‖ ≤ δ ∧ ImplicitStepsUpTo f δ z (t' :: ts) zs
  | _, [_], [] => True
  | _, _, _ => False

end Spec

namespace Torchdyn

open Spec Set

section algebra

variable {K A ι : Type} [Field K] [LinearOrder K] [IsStrictOrderedRing K] [Fintype ι]

theorem sumSq_nonneg (v : ι → K) : 0 ≤ sumSq v := Finset.sum_nonneg (fun _ _ => sq_nonneg _)

theorem sumSq_eq_zero {v : ι → K} : sumSq v = 0 ↔ v = 0 := by
  unfold sumSq
  rw [Finset.sum_eq_zero_iff_of_nonneg (fun i _ => sq_nonneg _)]
  constructor
  · intro h; funext i
    exact pow_eq_zero_iff (by norm_num) |>.1 (h i (Finset.mem_univ i))
  · rintro rfl i _; simp

/-- The squared defects of the implicit Euler equations along a grid. -/
def defects (g : (ι → K) → (ι → K)) : (ι → K) → List K → List (ι → K) → List K
  | y, t :: t' :: ts, z :: zs => sumSq (z - y - (t' - t) • g z) :: defects g z (t' :: ts) zs
  | _, _, _ => []

theorem mapM_ok {α β : Type} (g : α → β) (l : List α) :
    l.mapM (m := Except PyErr) (fun a => Except.ok (g a)) = .ok (l.map g) := by
  induction l with
  | nil => rfl
  | cons a l ih =>
    rw [List.mapM_cons]
    show (do let b ← Except.ok (g a); let bs ← l.mapM _; pure (b :: bs)) = _
    rw [ih]; rfl

theorem gaps_cons (t t' : K) (ts : List K) : gaps (t :: t' :: ts) = (t' - t) :: gaps (t' :: ts) := by
  simp [gaps]

theorem gaps_length (ts : List K) : (gaps ts).length = ts.length - 1 := by
  simp [gaps]

theorem tail_terms (g : (ι → K) → (ι → K)) (y : ι → K) (t : K) (ts : List K) (zs : List (ι → K))
    (h : zs.length = ts.length) :
    List.zipWith (fun p q => sumSq (p.1 - p.2 - q.1 • q.2)) (zs.zip (y :: zs))
      ((gaps (t :: ts)).zip (zs.map g)) = defects g y (t :: ts) zs := by
  induction ts generalizing y t zs with
  | nil => cases zs with
    | nil => rfl
    | cons z zs => simp at h
  | cons t' ts ih => cases zs with
    | nil => simp at h
    | cons z zs =>
      rw [gaps_cons]
      simp only [List.zip_cons_cons, List.map_cons, List.zipWith_cons_cons, defects]
      rw [ih z t' zs (by simpa using h)]

/-- The residual is the sum of the squared defects; row `0` does not enter. -/
theorem pieResidual_eq (f : K → (ι → K) → (ι → K)) (x b : ι → K) (t t' : K) (ts : List K) (zs : List (ι → K))
    (hlen : zs.length = (t' :: ts).length) :
    pieResidual (m := Except PyErr) (fun t x => .ok (f t x)) x (b :: zs) (t :: t' :: ts) =
      .ok (defects (f 0) x (t :: t' :: ts) zs).sum := by
  cases zs with
  | nil => simp at hlen
  | cons z zs =>
    have h1 : zs.length = ts.length := by simpa using hlen
    have hl : ((gaps (t :: t' :: ts)).drop 1).length = (((z :: zs).map (f 0)).drop 1).length := by
      simp [gaps_length, h1]
    unfold pieResidual
    simp only [List.drop_succ_cons, List.drop_zero, mapM_ok, bind, Except.bind, pure, Except.pure]
    rw [if_neg (by rw [gaps_cons] at *; simpa using hl)]
    simp only [gaps_cons, List.map_cons, List.drop_succ_cons, List.drop_zero, getItem, List.getElem?_cons_succ,
      List.getElem?_cons_zero, pure, Except.pure, defects, List.sum_cons]
    rw [tail_terms (f 0) z t' ts zs h1, add_comm]

theorem defects_nonneg (g : (ι → K) → (ι → K)) (y : ι → K) (ts : List K) (zs : List (ι → K)) :
    ∀ d ∈ defects g y ts zs, 0 ≤ d := by
  fun_induction defects g y ts zs with
  | case1 y t t' ts z zs ih =>
    intro d hd
    rcases List.mem_cons.1 hd with rfl | hd
    · exact sumSq_nonneg _
    · exact ih d hd
  | case2 => simp

theorem defects_sum_eq_zero (g : (ι → K) → (ι → K)) (y : ι → K) (t : K) (ts : List K) (zs : List (ι → K))
    (hlen : zs.length = ts.length) :
    (defects g y (t :: ts) zs).sum = 0 ↔ ImplicitSteps (fun _ => g) y (t :: ts) zs := by
  induction ts generalizing y t zs with
  | nil => cases zs with
    | nil => simp [defects, ImplicitSteps]
    | cons z zs => simp at hlen
  | cons t' ts ih => cases zs with
    | nil => simp at hlen
    | cons z zs =>
      simp only [defects, ImplicitSteps, List.sum_cons]
      rw [← ih z t' zs (by simpa using hlen), add_eq_zero_iff_of_nonneg (sumSq_nonneg _)
        (List.sum_nonneg (defects_nonneg g z _ zs)), sumSq_eq_zero, sub_sub, sub_eq_zero]

/-- **C88.** On an autonomous field, with one row per time point, the residual that `ParallelImplicitEuler`
minimises is defined, non-negative, and zero exactly when the rows after the first are the implicit Euler states of
the initial condition along the grid. -/
theorem C88_residual (g : (ι → K) → (ι → K)) (x b : ι → K) (t t' : K) (ts : List K) (zs : List (ι → K))
    (hlen : (b :: zs).length = (t :: t' :: ts).length) :
    ∃ r, pieResidual (m := Except PyErr) (fun _ x => .ok (g x)) x (b :: zs) (t :: t' :: ts) = .ok r ∧ 0 ≤ r ∧
      (r = 0 ↔ ImplicitSteps (fun _ => g) x (t :: t' :: ts) zs) :=
  ⟨_, pieResidual_eq (fun _ => g) x b t t' ts zs (by simpa using hlen),
    List.sum_nonneg (defects_nonneg _ _ _ _), defects_sum_eq_zero g x t (t' :: ts) zs (by simpa using hlen)⟩

/-- **C88 (partial: for a field that depends on time the equations solved are those of the field frozen at time 0).** -/
theorem C88_time_partial (f : K → (ι → K) → (ι → K)) (x b : ι → K) (t t' : K) (ts : List K) (zs : List (ι → K))
    (hlen : (b :: zs).length = (t :: t' :: ts).length) :
    ∃ r, pieResidual (m := Except PyErr) (fun t x => .ok (f t x)) x (b :: zs) (t :: t' :: ts) = .ok r ∧ 0 ≤ r ∧
      (r = 0 ↔ ImplicitSteps (fun _ => f 0) x (t :: t' :: ts) zs) :=
  ⟨_, pieResidual_eq f x b t t' ts zs (by simpa using hlen),
    List.sum_nonneg (defects_nonneg _ _ _ _), defects_sum_eq_zero (f 0) x t (t' :: ts) zs (by simpa using hlen)⟩

/-- **C88 refuted for time-dependent fields.** For `x' = t` on the grid `0, 1` the rows `0, 0` have zero residual, and
the implicit Euler state `1` has not. -/
theorem C88_time_refuted :
    pieResidual (m := Except PyErr) (fun t _ => .ok (fun _ => t)) (fun _ : Unit => (0 : ℚ)) [0, 0] [0, 1] = .ok 0 ∧
    pieResidual (m := Except PyErr) (fun t _ => .ok (fun _ => t)) (fun _ : Unit => (0 : ℚ)) [0, 1] [0, 1] = .ok 1 ∧
    ImplicitSteps (fun (t : ℚ) (_ : Unit → ℚ) _ => t) (fun _ => 0) [0, 1] [fun _ => 1] := by
  refine ⟨by decide +kernel, by decide +kernel, ?_, trivial⟩
  funext i; simp

/-- **C88.** The first row is not part of the problem: replacing it changes neither the residual nor, therefore,
what a zero of the residual is; in particular nothing makes the first returned row equal to the initial condition. -/
theorem C88_first_row (f : K → (ι → K) → (ι → K)) (x b b' : ι → K) (t t' : K) (ts : List K) (zs : List (ι → K))
    (hlen : (b :: zs).length = (t :: t' :: ts).length) :
    pieResidual (m := Except PyErr) (fun t x => .ok (f t x)) x (b :: zs) (t :: t' :: ts) =
      pieResidual (m := Except PyErr) (fun t x => .ok (f t x)) x (b' :: zs) (t :: t' :: ts) := by
  rw [pieResidual_eq f x b t t' ts zs (by simpa using hlen), pieResidual_eq f x b' t t' ts zs (by simpa using hlen)]

/-- Squared norms along implicit Euler steps of a dissipative field. -/
theorem implicit_dissipative (g : (ι → K) → (ι → K)) (hdiss : ∀ y, ∑ i, g y i * y i ≤ 0) (y : ι → K)
    (ts : List K) (zs : List (ι → K)) (hmono : ts.Pairwise (· ≤ ·)) (h : ImplicitSteps (fun _ => g) y ts zs) :
    ∀ z ∈ zs, sumSq z ≤ sumSq y := by
  fun_induction ImplicitSteps (fun _ : K => g) y ts zs with
  | case1 y t t' ts z zs ih =>
    have hz : sumSq z ≤ sumSq y := by
      have h0 : 0 ≤ t' - t := sub_nonneg.2 ((List.pairwise_cons.1 hmono).1 t' (by simp))
      have hy : ∀ i, y i = z i - (t' - t) * g z i := by
        intro i
        have := congrFun h.1 i
        simp only [Pi.add_apply, Pi.smul_apply, smul_eq_mul] at this
        linarith
      have e : sumSq y = sumSq z - 2 * (t' - t) * ∑ i, g z i * z i + (t' - t) ^ 2 * sumSq (g z) := by
        simp only [sumSq, hy, Finset.mul_sum, ← Finset.sum_sub_distrib, ← Finset.sum_add_distrib]
        exact Finset.sum_congr rfl (fun i _ => by ring)
      have h1 : 0 ≤ (t' - t) ^ 2 * sumSq (g z) := mul_nonneg (sq_nonneg _) (sumSq_nonneg _)
      have h2 : (t' - t) * ∑ i, g z i * z i ≤ 0 := mul_nonpos_of_nonneg_of_nonpos h0 (hdiss z)
      linarith
    intro w hw
    rcases List.mem_cons.1 hw with rfl | hw
    · exact hz
    · exact (ih (List.pairwise_cons.1 hmono).2 h.2 w hw).trans hz
  | case2 => simp
  | case3 => exact absurd h id

/-- **C88.** Whatever the optimiser does: when `odeint_mshooting` with `ParallelImplicitEuler` returns rows `B` at which
the residual is zero, it returns the times `t_span` and the rows after the first are the implicit Euler states of `x`;
if the field is dissipative (`⟨g(y), y⟩ ≤ 0`) and the grid non-decreasing, none of them has a larger squared norm than
`x`, whatever the step sizes. -/
theorem C88_odeint (minimise : (List (ι → K) → Except PyErr K) → List (ι → K) → Except PyErr (List (ι → K)))
    (g : (ι → K) → (ι → K)) (x : ι → K) (t t' : K) (ts : List K) (B0 : Option (List (ι → K))) (args : A)
    (times : List K) (B : List (ι → K))
    (hrun : odeintPie minimise (fun _ x => .ok (g x)) x (t :: t' :: ts) B0 args = .ok (times, B))
    (hlen : B.length = (t :: t' :: ts).length)
    (hmin : pieResidual (m := Except PyErr) (fun _ x => .ok (g x)) x B (t :: t' :: ts) = .ok 0) :
    times = t :: t' :: ts ∧ ImplicitSteps (fun _ => g) x (t :: t' :: ts) B.tail ∧
      ((∀ y, ∑ i, g y i * y i ≤ 0) → (t :: t' :: ts).Pairwise (· ≤ ·) →
        ∀ z ∈ B.tail, ∑ i, z i ^ 2 ≤ ∑ i, x i ^ 2) := by
  have ht : times = t :: t' :: ts := by
    unfold odeintPie at hrun
    simp only [bind, Except.bind, pure, Except.pure] at hrun
    repeat' split at hrun
    all_goals first
      | (simp only [Except.ok.injEq, Prod.mk.injEq] at hrun; exact hrun.1.symm)
      | cases hrun
  cases B with
  | nil => simp at hlen
  | cons b zs =>
    obtain ⟨r, hr, _, hz⟩ := C88_residual g x b t t' ts zs hlen
    rw [hmin] at hr
    simp only [Except.ok.injEq] at hr
    have hs := hz.1 hr.symm
    exact ⟨ht, hs, fun hd hm => implicit_dissipative g hd x _ _ hm hs⟩

/-- C88 on `x' = -x`, grid `0, 1, 3`, with an optimiser that finds the solution: the hypotheses are met, and the rows
after the first are `1/2` and `1/6`. -/
example : odeintPie (m := Except PyErr) (A := Unit) (fun _ B => .ok (B.take 1 ++ [fun _ => 1 / 2, fun _ => 1 / 6]))
      (fun _ y => .ok (-y)) (fun _ : Unit => (1 : ℚ)) [0, 1, 3] none () =
        .ok ([0, 1, 3], [fun _ => 1, fun _ => 1 / 2, fun _ => 1 / 6]) ∧
    pieResidual (m := Except PyErr) (fun _ y => .ok (-y)) (fun _ : Unit => (1 : ℚ))
      [fun _ => 1, fun _ => 1 / 2, fun _ => 1 / 6] [0, 1, 3] = .ok 0 ∧
    ∀ y : Unit → ℚ, ∑ i, (-y) i * y i ≤ 0 := by
  refine ⟨by decide +kernel, by decide +kernel, fun y => ?_⟩
  simp only [Pi.neg_apply, Finset.univ_unique, Finset.sum_singleton]
  nlinarith [sq_nonneg (y default)]

/-- **C88.** Fewer than two time points: there is no `B[1]` (or no `dt[0]`) and the solver raises `IndexError`. -/
theorem C88_short (f : K → (ι → K) → (ι → K)) (x b : ι → K) (t : K) :
    pieResidual (m := Except PyErr) (fun t x => .ok (f t x)) x [b] [t] = .error PyErr.indexError := by
  rfl

end algebra

section accuracy

variable {V : Type} [NormedAddCommGroup V] [NormedSpace ℝ V]

/-- Two approximate implicit Euler paths on the same grid. -/
theorem implicit_stability (g : V → V) (L H δ δ' : ℝ) (hL : 0 ≤ L) (hH : 0 ≤ H) (hHL : H * L < 1) (hδ : 0 ≤ δ + δ')
    (hLip : ∀ x x', ‖g x - g x'‖ ≤ L * ‖x - x'‖) (ts : List ℝ) (y y' : V) (zs zs' : List V) (e : ℝ)
    (he : ‖y - y'‖ ≤ e)
    (hgap : ∀ (k : ℕ) (t t' : ℝ), ts[k]? = some t → ts[k + 1]? = some t' → 0 ≤ t' - t ∧ t' - t ≤ H)
    (h : ImplicitStepsUpTo (fun _ => g) δ y ts zs) (h' : ImplicitStepsUpTo (fun _ => g) δ' y' ts zs')
    (k : ℕ) (z z' : V) (hz : zs[k]? = some z) (hz' : zs'[k]? = some z') :
    ‖z - z'‖ ≤ (e + (k + 1) * (δ + δ')) / (1 - H * L) ^ (k + 1) := by
  induction ts generalizing y y' zs zs' e k with
  | nil => cases zs <;> simp [ImplicitStepsUpTo] at h
  | cons t ts ih =>
    match ts, zs, zs', h, h', hz with
    | [], [], _, _, _, hz => simp at hz
    | t' :: ts, w :: ws, w' :: ws', h, h', hz =>
      have hq : 0 < 1 - H * L := by linarith
      have hq1 : 1 - H * L ≤ 1 := by nlinarith
      obtain ⟨hg0, hg1⟩ := hgap 0 t t' rfl rfl
      have hstep : ‖w - w'‖ ≤ (e + (δ + δ')) / (1 - H * L) := by
        have e1 : w - w' = (w - (y + (t' - t) • g w)) - (w' - (y' + (t' - t) • g w')) + (y - y')
            + (t' - t) • (g w - g w') := by module
        have b1 : ‖w - w'‖ ≤ δ + δ' + e + (t' - t) * (L * ‖w - w'‖) := by
          calc ‖w - w'‖ = _ := congrArg norm e1
            _ ≤ ‖w - (y + (t' - t) • g w)‖ + ‖w' - (y' + (t' - t) • g w')‖ + ‖y - y'‖
                + ‖(t' - t) • (g w - g w')‖ := by
              refine (norm_add_le _ _).trans (add_le_add_left ?_ _)
              exact (norm_add_le _ _).trans (add_le_add_left (norm_sub_le _ _) _)
            _ ≤ δ + δ' + e + (t' - t) * (L * ‖w - w'‖) := by
              rw [norm_smul, Real.norm_of_nonneg hg0]
              exact add_le_add (add_le_add (add_le_add h.1 h'.1) he)
                (mul_le_mul_of_nonneg_left (hLip w w') hg0)
        have b2 : (t' - t) * (L * ‖w - w'‖) ≤ H * (L * ‖w - w'‖) :=
          mul_le_mul_of_nonneg_right hg1 (mul_nonneg hL (norm_nonneg _))
        rw [le_div_iff₀ hq]
        nlinarith
      cases k with
      | zero =>
        simp only [List.getElem?_cons_zero, Option.some.injEq] at hz hz'
        subst hz hz'
        simpa using hstep
      | succ k =>
        have := ih w w' ws ws' _ hstep (fun k a b ha hb => hgap (k + 1) a b ha hb) h.2 h'.2 k
          (by simpa using hz) (by simpa using hz')
        refine this.trans ?_
        rw [pow_succ _ (k + 1), mul_comm ((1 - H * L) ^ (k + 1)), ← div_div]
        refine div_le_div_of_nonneg_right ?_ (by positivity)
        rw [le_div_iff₀ hq, add_mul, div_mul_cancel₀ _ hq.ne']
        have : ((k : ℝ) + 1) * (δ + δ') * (1 - H * L) ≤ (k + 1) * (δ + δ') * 1 :=
          mul_le_mul_of_nonneg_left hq1 (by positivity)
        push_cast
        linarith

/-- The exact solution satisfies the implicit Euler equations up to `L M H²`. -/
theorem implicit_consistency (g : V → V) (L M H a b : ℝ) (hL : 0 ≤ L) (hM : 0 ≤ M)
    (hLip : ∀ x x', ‖g x - g x'‖ ≤ L * ‖x - x'‖) (y : ℝ → V) (hy : SolvesOn g a b y)
    (hMy : ∀ s ∈ Icc a b, ‖g (y s)‖ ≤ M) (t : ℝ) (ts : List ℝ) (hin : ∀ s ∈ t :: ts, s ∈ Icc a b)
    (hgap : ∀ (k : ℕ) (s s' : ℝ), (t :: ts)[k]? = some s → (t :: ts)[k + 1]? = some s' → 0 ≤ s' - s ∧ s' - s ≤ H) :
    ImplicitStepsUpTo (fun _ => g) (L * M * H ^ 2) (y t) (t :: ts) (ts.map y) := by
  induction ts generalizing t with
  | nil => trivial
  | cons t' ts ih =>
    refine ⟨?_, ih t' (fun s hs => hin s (List.mem_cons_of_mem _ hs)) (fun k s s' h1 h2 => hgap (k + 1) s s' h1 h2)⟩
    obtain ⟨h0, h1⟩ := hgap 0 t t' rfl rfl
    have hta := hin t (by simp)
    have htb := hin t' (by simp)
    have hsub : Icc t t' ⊆ Icc a b := Icc_subset_Icc hta.1 htb.2
    have hyd : ∀ s ∈ Icc t t', HasDerivWithinAt y (g (y s)) (Icc t t') s :=
      fun s hs => (hy s (hsub hs)).mono hsub
    have hclose : ∀ s ∈ Icc t t', ‖y s - y t'‖ ≤ M * H := by
      intro s hs
      have := (convex_Icc t t').norm_image_sub_le_of_norm_hasDerivWithin_le hyd (fun u hu => hMy u (hsub hu))
        (right_mem_Icc.2 (by linarith)) hs
      refine this.trans (mul_le_mul_of_nonneg_left ?_ hM)
      rw [Real.norm_eq_abs, abs_le]
      constructor <;> linarith [hs.1, hs.2]
    have hd : ∀ s ∈ Icc t t', HasDerivWithinAt (fun s => y s - s • g (y t')) (g (y s) - g (y t')) (Icc t t') s := by
      intro s hs
      have := (hyd s hs).sub ((hasDerivWithinAt_id s (Icc t t')).smul_const (g (y t')))
      rw [one_smul] at this
      exact this
    have := (convex_Icc t t').norm_image_sub_le_of_norm_hasDerivWithin_le (C := L * (M * H)) hd
      (fun s hs => (hLip _ _).trans (mul_le_mul_of_nonneg_left (hclose s hs) hL))
      (left_mem_Icc.2 (by linarith)) (right_mem_Icc.2 (by linarith))
    rw [Real.norm_of_nonneg h0] at this
    show ‖y t' - (y t + (t' - t) • g (y t'))‖ ≤ _
    rw [show y t' - (y t + (t' - t) • g (y t')) = (y t' - t' • g (y t')) - (y t - t • g (y t')) by module]
    refine this.trans ?_
    have : L * (M * H) * (t' - t) ≤ L * (M * H) * H :=
      mul_le_mul_of_nonneg_left h1 (mul_nonneg hL (mul_nonneg hM (h0.trans h1)))
    linarith [this, show L * (M * H) * H = L * M * H ^ 2 by ring]

theorem implicitSteps_upTo (f : ℝ → V → V) (y : V) (ts : List ℝ) (zs : List V) (h : ImplicitSteps f y ts zs) :
    ImplicitStepsUpTo f 0 y ts zs := by
  fun_induction ImplicitSteps f y ts zs with
  | case1 y t t' ts z zs ih =>
    refine ⟨?_, ih h.2⟩
    rw [sub_eq_zero.2 h.1, norm_zero]
  | case2 => trivial
  | case3 => exact absurd h id

/-- **C88.** When the step sizes are at most `H` and the field is Lipschitz with constant `L`, `H L < 1`, the system
solved by `ParallelImplicitEuler` has exactly one solution. -/
theorem C88_unique [CompleteSpace V] (g : V → V) (L H : ℝ) (hL : 0 ≤ L) (hH : 0 ≤ H) (hHL : H * L < 1)
    (hLip : ∀ x x', ‖g x - g x'‖ ≤ L * ‖x - x'‖) (t : ℝ) (ts : List ℝ) (y : V)
    (hgap : ∀ (k : ℕ) (s s' : ℝ), (t :: ts)[k]? = some s → (t :: ts)[k + 1]? = some s' → 0 ≤ s' - s ∧ s' - s ≤ H) :
    ∃! zs, ImplicitSteps (fun _ => g) y (t :: ts) zs := by
  induction ts generalizing t y with
  | nil =>
    refine ⟨[], trivial, ?_⟩
    intro zs hz
    cases zs with
    | nil => rfl
    | cons z zs => exact absurd hz id
  | cons t' ts ih =>
    obtain ⟨h0, h1⟩ := hgap 0 t t' rfl rfl
    have hlip : LipschitzWith (Real.toNNReal (H * L)) (fun z => y + (t' - t) • g z) := by
      refine LipschitzWith.of_dist_le_mul (fun z z' => ?_)
      rw [Real.coe_toNNReal _ (mul_nonneg hH hL), dist_eq_norm, dist_eq_norm]
      rw [show y + (t' - t) • g z - (y + (t' - t) • g z') = (t' - t) • (g z - g z') by module, norm_smul,
        Real.norm_of_nonneg h0, mul_assoc]
      exact mul_le_mul h1 (hLip z z') (norm_nonneg _) hH
    have hc : ContractingWith (Real.toNNReal (H * L)) (fun z => y + (t' - t) • g z) :=
      ⟨by rw [← NNReal.coe_lt_coe, Real.coe_toNNReal _ (mul_nonneg hH hL)]; exact_mod_cast hHL, hlip⟩
    have : Nonempty V := ⟨y⟩
    obtain ⟨zs, hzs, huniq⟩ := ih t' (ContractingWith.fixedPoint _ hc)
      (fun k s s' h1 h2 => hgap (k + 1) s s' h1 h2)
    refine ⟨ContractingWith.fixedPoint _ hc :: zs, ⟨(hc.fixedPoint_isFixedPt).symm, hzs⟩, ?_⟩
    intro ws hws
    cases ws with
    | nil => exact absurd hws id
    | cons w ws =>
      obtain ⟨hw, hws⟩ := hws
      have hwe : w = ContractingWith.fixedPoint _ hc := hc.fixedPoint_unique hw.symm
      subst hwe
      rw [huniq ws hws]

/-- Entries of a vector are bounded by the root of the sum of squares. -/
theorem norm_le_sqrt_sumSq {ι : Type} [Fintype ι] (v : ι → ℝ) : ‖v‖ ≤ Real.sqrt (sumSq v) := by
  rw [pi_norm_le_iff_of_nonneg (Real.sqrt_nonneg _)]
  intro i
  rw [Real.norm_eq_abs]
  exact Real.abs_le_sqrt (Finset.single_le_sum (f := fun i => v i ^ 2) (fun i _ => sq_nonneg _) (Finset.mem_univ i))

theorem defects_upTo {ι : Type} [Fintype ι] (g : (ι → ℝ) → (ι → ℝ)) (y : ι → ℝ) (t : ℝ) (ts : List ℝ)
    (zs : List (ι → ℝ)) (hlen : zs.length = ts.length) (r : ℝ) (hr : (defects g y (t :: ts) zs).sum ≤ r) :
    ImplicitStepsUpTo (fun _ => g) (Real.sqrt r) y (t :: ts) zs := by
  induction ts generalizing y t zs with
  | nil => cases zs with
    | nil => trivial
    | cons z zs => simp at hlen
  | cons t' ts ih => cases zs with
    | nil => simp at hlen
    | cons z zs =>
      simp only [defects, List.sum_cons] at hr
      have h1 := sumSq_nonneg (z - y - (t' - t) • g z)
      have h2 := List.sum_nonneg (defects_nonneg g z (t' :: ts) zs)
      refine ⟨?_, ih z t' zs (by simpa using hlen) (by linarith)⟩
      rw [← sub_sub]
      exact (norm_le_sqrt_sumSq _).trans (Real.sqrt_le_sqrt (by linarith))

/-- **C88.** Accuracy for an optimiser that stops early. Let the field be Lipschitz with constant `L` and bounded by `M`
along the exact solution `y`, the gaps of the grid at most `H` and `H L < 1`. Rows with residual `r` differ from the
exact solution at the `k`-th grid point by at most `k (√r + L M H²) / (1 - H L)^k`. -/
theorem C88_accuracy {ι : Type} [Fintype ι] (g : (ι → ℝ) → (ι → ℝ)) (L M H a b : ℝ) (hL : 0 ≤ L) (hM : 0 ≤ M)
    (hH : 0 ≤ H) (hHL : H * L < 1) (hLip : ∀ x x', ‖g x - g x'‖ ≤ L * ‖x - x'‖)
    (y : ℝ → ι → ℝ) (hy : SolvesOn g a b y) (hMy : ∀ s ∈ Icc a b, ‖g (y s)‖ ≤ M)
    (t t' : ℝ) (ts : List ℝ) (hin : ∀ s ∈ t :: t' :: ts, s ∈ Icc a b)
    (hgap : ∀ (k : ℕ) (s s' : ℝ), (t :: t' :: ts)[k]? = some s → (t :: t' :: ts)[k + 1]? = some s' →
      0 ≤ s' - s ∧ s' - s ≤ H)
    (B : List (ι → ℝ)) (hlen : B.length = (t :: t' :: ts).length) (r : ℝ)
    (hres : pieResidual (m := Except PyErr) (fun _ x => .ok (g x)) (y t) B (t :: t' :: ts) = .ok r)
    (k : ℕ) (hk : 0 < k) (s : ℝ) (z : ι → ℝ) (hs : (t :: t' :: ts)[k]? = some s) (hz : B[k]? = some z) :
    ‖z - y s‖ ≤ k * (Real.sqrt r + L * M * H ^ 2) / (1 - H * L) ^ k := by
  cases B with
  | nil => simp at hlen
  | cons b zs =>
    obtain ⟨k, rfl⟩ : ∃ j, k = j + 1 := ⟨k - 1, by omega⟩
    have hl : zs.length = (t' :: ts).length := by simpa using hlen
    rw [pieResidual_eq (fun _ => g) (y t) b t t' ts zs hl] at hres
    simp only [Except.ok.injEq] at hres
    have h1 := defects_upTo g (y t) t (t' :: ts) zs hl r hres.le
    have h2 := implicit_consistency g L M H a _ hL hM hLip y hy hMy t (t' :: ts) hin hgap
    have := implicit_stability g L H (Real.sqrt r) (L * M * H ^ 2) hL hH hHL
      (add_nonneg (Real.sqrt_nonneg _) (by positivity)) hLip _ (y t) (y t) zs _ 0 (by simp) hgap h1 h2 k z (y s)
      (by simpa using hz) (by
        have : (t' :: ts)[k]? = some s := by simpa using hs
        rw [List.getElem?_map, this]; rfl)
    simpa using this

/-- The hypotheses of C88 (accuracy) are met by `x' = -x`, `y = exp(-t)`, on the grid `0, 1/2, 1`, for rows that are
not an exact zero of the residual: the bound for the last row. -/
example (z : Unit → ℝ) (r : ℝ)
    (hres : pieResidual (m := Except PyErr) (fun _ x => .ok (-x)) (fun _ : Unit => Real.exp (-0))
      [fun _ => 7, fun _ => 2 / 3, z] [0, 1 / 2, 1] = .ok r) :
    ‖z - (fun _ => Real.exp (-1))‖ ≤ (2 : ℕ) * (Real.sqrt r + 1 * 1 * (1 / 2) ^ 2) / (1 - 1 / 2 * 1) ^ 2 := by
  refine C88_accuracy (fun x : Unit → ℝ => -x) 1 1 (1 / 2) 0 1 (by norm_num) (by norm_num) (by norm_num) (by norm_num)
    (fun x x' => ?_) (fun t _ => Real.exp (-t)) (fun t _ => ?_) (fun s hs => ?_) 0 (1 / 2) [1] (fun s hs => ?_)
    (fun k s s' h1 h2 => ?_) [fun _ => 7, fun _ => 2 / 3, z] rfl r hres 2 (by norm_num) 1 z rfl rfl
  · rw [one_mul, show -x - -x' = -(x - x') by module, norm_neg]
  · rw [hasDerivWithinAt_pi]
    intro _
    have := ((hasDerivAt_neg t).exp).hasDerivWithinAt (s := Icc (0 : ℝ) 1)
    simpa using this
  · rw [pi_norm_le_iff_of_nonneg (by norm_num)]
    intro _
    have h0 : Real.exp (-s) ≤ 1 := Real.exp_le_one_iff.2 (by linarith [hs.1])
    simp only [Pi.neg_apply, norm_neg, Real.norm_eq_abs, abs_of_pos (Real.exp_pos _)]
    exact h0
  · simp only [List.mem_cons, List.not_mem_nil, or_false] at hs
    rcases hs with rfl | rfl | rfl <;> norm_num
  · match k with
    | 0 => simp at h1 h2; subst h1 h2; norm_num
    | 1 => simp at h1 h2; subst h1 h2; norm_num
    | k + 2 => simp at h2

end accuracy

/-- **C88.** `_shifted_fixed_odeint` never returns: on time spans with at least two points and a field that does not
raise, the result is a `NameError` or, when every segment is already at its end, a `RuntimeError`. -/
theorem C88_shifted {K V : Type} [Field K] [LinearOrder K] (f : List K → V → Except PyErr V) (x : V)
    (tSpans : List (List K)) : ∃ e, shiftedFixedOdeint f x tSpans = .error e := by
  unfold shiftedFixedOdeint
  simp only [bind, Except.bind, throw, throwThe, MonadExceptOf.throw]
  split
  · exact ⟨_, rfl⟩
  · split
    · exact ⟨_, rfl⟩
    · split
      · exact ⟨_, rfl⟩
      · split
        · exact ⟨_, rfl⟩
        · split <;> exact ⟨_, rfl⟩

end Torchdyn
