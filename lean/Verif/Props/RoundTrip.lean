import Mathlib.Topology.MetricSpace.Contracting
import Verif.Props.AdaptiveAccuracy
import Verif.Props.UniformConvergence
import Verif.Props.PararealError

/-!
Property C153: integrating back over the reversed grid recovers the states of the forward integration (sampling from a
continuous normalizing flow and evaluating its density rely on it), and with small steps the discretised flow is a
bijection of the state space.
-/

set_option linter.unusedSectionVars false

namespace Torchdyn

open Spec Set

variable {V A : Type} [NormedAddCommGroup V] [NormedSpace ℝ V]

/-- Integrating `x' = f(t, x)` with `odeint` over an increasing grid and then, from the last state, over the reversed grid
recovers every state up to `C h^p`: for each radius `R` there are `C` and `δ > 0` which serve all solutions `y` on
subintervals `[a, b]` of `[t0, T]` with `‖y‖ ≤ R` and all grids from `a` in `[a, b]` with gaps at most `h ≤ δ`. The bound holds for the
steps `φ` of the solver and `ψ` of the solver on the reversed field; on grids without close times these are the two calls of `odeint`. -/
def RoundTrip (p : ℕ) (solver : Solver (Except PyErr) ℝ V A) (args : A) (f : ℝ → V → V) (t0 T : ℝ) : Prop :=
  ∀ R : ℝ, ∃ C δ, 0 < δ ∧ ∀ (y : ℝ → V) (a b : ℝ), t0 ≤ a → b ≤ T →
    (∀ t ∈ Icc a b, HasDerivWithinAt y (f t (y t)) (Icc a b) t) → (∀ t ∈ Icc a b, ‖y t‖ ≤ R) →
    ∀ (t1 : ℝ) (rest : List ℝ) (h : ℝ), h ≤ δ →
    (a :: t1 :: rest).Pairwise (· < ·) → (∀ t ∈ a :: t1 :: rest, t ≤ b) →
    (∀ (k : ℕ) (t t' : ℝ), (a :: t1 :: rest)[k]? = some t → (a :: t1 :: rest)[k + 1]? = some t' → t' - t ≤ h) →
    ∃ φ ψ sol z sol', SteppedBy solver f args φ ∧ SteppedBy solver (fun t x => -f (-t) x) args ψ ∧
      IsTrajectory φ (y a) (a :: t1 :: rest) sol ∧ sol.getLast? = some z ∧
      IsTrajectory ψ z ((a :: t1 :: rest).reverse.map fun t => -t) sol' ∧
      (Separated (a :: t1 :: rest) →
        odeintFixed (pureField f) (y a) (a :: t1 :: rest) solver [] args = .ok (a :: t1 :: rest, sol) ∧
        odeintFixed (pureField f) z (a :: t1 :: rest).reverse solver [] args =
          .ok ((a :: t1 :: rest).reverse.map (fun t => -t), sol')) ∧
      ∀ (k : ℕ) (x x' : V), sol[k]? = some x → sol'.reverse[k]? = some x' → ‖x' - x‖ ≤ C * h ^ p

theorem separated_reverse {l : List ℝ} (h : Separated l) : Separated l.reverse := by
  rw [Separated, List.pairwise_reverse]
  exact h.imp fun h => ⟨h.2, h.1⟩

theorem odeintFixed_mirror {f : ℝ → V → V} {solver : Solver (Except PyErr) ℝ V A} {args : A}
    (x : V) {u v : ℝ} (r : List ℝ) (hdir : v < u) :
    odeintFixed (pureField f) x (u :: v :: r) solver [] args =
      odeintFixed (pureField fun t x => -f (-t) x) x (-u :: -v :: r.map (fun t => -t)) solver [] args := by
  rw [odeintFixed_backward _ _ _ hdir, odeintFixed_forward _ _ _ (by linarith)]
  rfl

theorem roundTrip_of_uniform {p : ℕ} (hp : p ≠ 0) {solver : Solver (Except PyErr) ℝ V A} {args : A} {f : ℝ → V → V}
    {t0 T : ℝ} (H1 : ConvergesUniformly p solver args f t0 T)
    (H2 : ConvergesUniformly p solver args (fun t x => -f (-t) x) (-T) (-t0)) : RoundTrip p solver args f t0 T := by
  intro R
  obtain ⟨C1, δ1, hC1, hδ1, H1⟩ := H1 R
  obtain ⟨C2, δ2, hC2, hδ2, H2⟩ := H2 R
  refine ⟨C2 * (1 + C1) + C1, min (min δ1 δ2) (min 1 (δ2 / (C1 + 1))), by positivity, ?_⟩
  intro y a b h0a hbT hy hyR t1 rest h hh hmono hT hgap
  have hh1 : h ≤ δ1 := hh.trans ((min_le_left _ _).trans (min_le_left _ _))
  have hh2 : h ≤ δ2 := hh.trans ((min_le_left _ _).trans (min_le_right _ _))
  have hh3 : h ≤ 1 := hh.trans ((min_le_right _ _).trans (min_le_left _ _))
  have hh4 : h ≤ δ2 / (C1 + 1) := hh.trans ((min_le_right _ _).trans (min_le_right _ _))
  have h01 : a < t1 := (List.pairwise_cons.1 hmono).1 t1 (by simp)
  have hh0 : 0 < h := by
    have := hgap 0 a t1 (by simp) (by simp)
    linarith
  have hhp : h ^ p ≤ h := by simpa using pow_le_pow_of_le_one hh0.le hh3 (Nat.one_le_iff_ne_zero.2 hp)
  have hhp0 : 0 ≤ h ^ p := by positivity
  obtain ⟨φ, sol, hsφ, htr, hrun, herr⟩ := H1 y a b h0a hbT hy hyR (y a) t1 rest h (by simpa using hδ1.le) hh1 hmono hT hgap
  simp only [sub_self, norm_zero, add_zero] at herr
  have hlen := htr.length_eq
  generalize hl : a :: t1 :: rest = l at *
  have hl2 : 2 ≤ l.length := by rw [← hl]; simp
  obtain ⟨u, v, r, hr⟩ : ∃ u v r, l.reverse = u :: v :: r := by
    match hq : l.reverse with
    | [] =>
      have := congrArg List.length hq
      rw [List.length_reverse] at this
      simp only [List.length_nil] at this
      omega
    | [_] =>
      have := congrArg List.length hq
      rw [List.length_reverse] at this
      simp only [List.length_cons, List.length_nil] at this
      omega
    | u :: v :: r => exact ⟨u, v, r, rfl⟩
  have hrev : ∀ k, k < l.length → l.reverse[l.length - 1 - k]? = l[k]? := by
    intro k hk
    rw [List.getElem?_reverse (by omega)]
    congr 1
    omega
  have hgt : (u :: v :: r).Pairwise (· > ·) := by
    rw [← hr, List.pairwise_reverse]
    exact hmono
  have hvu : v < u := (List.pairwise_cons.1 hgt).1 v (by simp)
  have hu : l[l.length - 1]? = some u := by
    have := hrev (l.length - 1) (by omega)
    rw [← this, hr]
    simp
  have hmem : ∀ t, t ∈ u :: v :: r ↔ t ∈ l := by intro t; rw [← hr]; simp
  have hage : ∀ t ∈ l, a ≤ t := by
    intro t ht
    rw [← hl] at ht hmono
    rcases List.mem_cons.1 ht with rfl | hm
    · exact le_rfl
    · exact ((List.pairwise_cons.1 hmono).1 t hm).le
  have hub : u ≤ b := hT u ((hmem u).1 (by simp))
  obtain ⟨z, hz⟩ : ∃ z, sol[l.length - 1]? = some z := ⟨_, List.getElem?_eq_getElem (by omega)⟩
  have hzu := herr _ u z hu hz
  have hz2 : ‖z - y u‖ ≤ δ2 := by
    have h1 : (C1 + 1) * h ≤ δ2 := by
      rw [le_div_iff₀ (by positivity)] at hh4
      linarith
    have h2 := mul_le_mul_of_nonneg_left hhp hC1
    nlinarith
  have hmap : -u :: -v :: r.map (fun t => -t) = l.reverse.map (fun t => -t) := by rw [hr]; rfl
  obtain ⟨ψ, sol', hsψ, htr', hrun', herr'⟩ := H2 (fun s => y (-s)) (-u) (-a) (by linarith) (by linarith)
    (fun s hs => by
      have hm : -s ∈ Icc a b := ⟨by linarith [hs.2], by linarith [hs.1]⟩
      have h1 := (hy (-s) hm).scomp s (hasDerivAt_neg s).hasDerivWithinAt (s := Icc (-u) (-a))
        (fun w hw => ⟨by linarith [hw.2], by linarith [hw.1]⟩)
      simpa [Function.comp_def] using h1)
    (fun s hs => hyR (-s) ⟨by linarith [hs.2], by linarith [hs.1]⟩)
    z (-v) (r.map fun t => -t) h (by simpa using hz2) hh2
    (by
      rw [hmap, hr, List.pairwise_map]
      exact hgt.imp fun h => neg_lt_neg h)
    (by
      rw [hmap]
      intro t ht
      obtain ⟨s, hs, rfl⟩ := List.mem_map.1 ht
      exact neg_le_neg (hage s (List.mem_reverse.1 hs)))
    (by
      rw [hmap]
      intro k t t' hk hk'
      rw [List.getElem?_map, Option.map_eq_some_iff] at hk hk'
      obtain ⟨s, hs, rfl⟩ := hk
      obtain ⟨s', hs', rfl⟩ := hk'
      have hk1 : k + 1 < l.length := by simpa using (List.getElem?_eq_some_iff.1 hs').1
      rw [List.getElem?_reverse (by omega)] at hs hs'
      have := hgap (l.length - 1 - (k + 1)) s' s hs' (by rw [← hs]; congr 1; omega)
      linarith)
  have hlen' := htr'.length_eq
  rw [hmap] at hlen' hrun' herr' htr'
  refine ⟨φ, ψ, sol, z, sol', hsφ, hsψ, htr, ?_, htr', fun hsep => ⟨hrun hsep, ?_⟩, ?_⟩
  · rw [List.getLast?_eq_getElem?, hlen, hz]
  · rw [← hrun' ((separated_neg _).2 (separated_reverse hsep)), ← hmap, hr, odeintFixed_mirror _ _ hvu]
  · intro k x x' hx hx'
    have hk : k < l.length := hlen ▸ (List.getElem?_eq_some_iff.1 hx).1
    simp only [List.length_map, List.length_reverse] at hlen'
    obtain ⟨t, ht⟩ : ∃ t, l[k]? = some t := ⟨_, List.getElem?_eq_getElem hk⟩
    have e1 := herr k t x ht hx
    rw [List.getElem?_reverse (by omega), hlen'] at hx'
    have e2 := herr' (l.length - 1 - k) (-t) x' (by rw [List.getElem?_map, hrev k hk, ht]; rfl) hx'
    simp only [neg_neg] at e2
    have e3 : ‖x' - x‖ ≤ ‖x' - y t‖ + ‖x - y t‖ := by
      rw [norm_sub_rev x]
      exact norm_sub_le_norm_sub_add_norm_sub _ _ _
    have e4 := mul_le_mul_of_nonneg_left hzu hC2
    nlinarith

section finite

variable [FiniteDimensional ℝ V]

/-- **C153.** A round trip with `euler` recovers the states to first order. -/
theorem C153_euler (f : ℝ → V → V) (hf : ContDiff ℝ 1 (fun p : ℝ × V => f p.1 p.2)) (t0 T : ℝ) (args : A) :
    RoundTrip 1 (eulerSolver (Except PyErr) ℝ V A) args f t0 T :=
  roundTrip_of_uniform one_ne_zero (C108_euler f hf t0 T args)
    (C108_euler _ (ContDiff.neg (hf.comp ((contDiff_fst.neg).prodMk contDiff_snd))) _ _ args)

/-- **C153.** A round trip with `midpoint` recovers the states to second order. -/
theorem C153_midpoint (f : ℝ → V → V) (hf : ContDiff ℝ 2 (fun p : ℝ × V => f p.1 p.2)) (t0 T : ℝ) (args : A) :
    RoundTrip 2 (midpointSolver (Except PyErr) ℝ V A) args f t0 T :=
  roundTrip_of_uniform two_ne_zero (C108_midpoint f hf t0 T args)
    (C108_midpoint _ (ContDiff.neg (hf.comp ((contDiff_fst.neg).prodMk contDiff_snd))) _ _ args)

/-- **C153.** A round trip with `rk4` on an autonomous field recovers the states to fourth order. -/
theorem C153_rk4 (F : V → V) (hF : ContDiff ℝ 4 F) (t0 T : ℝ) (args : A) :
    RoundTrip 4 (rk4Solver (Except PyErr) ℝ V A) args (fun _ x => F x) t0 T :=
  roundTrip_of_uniform four_ne_zero (C108_rk4_partial F hF t0 T args)
    (C108_rk4_partial (fun x => -F x) hF.neg _ _ args)

end finite

/-! ### The discretised flow is a bijection -/

/-- Integrating over the grid `l` from `t0` to `T` with `odeint` is a bijection from initial to final states, and distances
change at most by the factors `exp (κ |T - t0|)` forward and `exp (2 κ |T - t0|)` backward. -/
def FlowBijective (κ : ℝ) (solver : Solver (Except PyErr) ℝ V A) (args : A) (f : ℝ → V → V) (l : List ℝ) (t0 T : ℝ) : Prop :=
  (∀ z, ∃! x, ∃ ts sol, odeintFixed (pureField f) x l solver [] args = .ok (ts, sol) ∧ sol.getLast? = some z) ∧
  ∀ x x' ts ts' sol sol' z z', odeintFixed (pureField f) x l solver [] args = .ok (ts, sol) →
    odeintFixed (pureField f) x' l solver [] args = .ok (ts', sol') → sol.getLast? = some z → sol'.getLast? = some z' →
    ‖z - z'‖ ≤ Real.exp (κ * |T - t0|) * ‖x - x'‖ ∧ ‖x - x'‖ ≤ Real.exp (2 * κ * |T - t0|) * ‖z - z'‖

theorem exp_lower {z : ℝ} (h0 : 0 ≤ z) (h1 : z ≤ 1 / 2) : 1 ≤ Real.exp (2 * z) * (1 - z) := by
  have := Real.add_one_le_exp (2 * z)
  nlinarith

theorem step_bijective [CompleteSpace V] {κ Δ : ℝ} (hκ : 0 ≤ κ) (hκΔ : κ * Δ ≤ 1 / 2) {φ : V → ℝ → ℝ → V}
    (hφ : IncrementLipschitz κ Δ φ) (t h : ℝ) (h0 : 0 ≤ h) (hh : h ≤ Δ) :
    Function.Surjective (fun x => φ x t h) ∧
      ∀ x x', ‖φ x t h - φ x' t h‖ ≤ Real.exp (κ * h) * ‖x - x'‖ ∧ ‖x - x'‖ ≤ Real.exp (2 * κ * h) * ‖φ x t h - φ x' t h‖ := by
  have hκh : κ * h ≤ 1 / 2 := (mul_le_mul_of_nonneg_left hh hκ).trans hκΔ
  have hκh0 : 0 ≤ κ * h := by positivity
  refine ⟨fun z => ?_, fun x x' => ?_⟩
  · have hc : ContractingWith (1 / 2) (fun x => z - (φ x t h - x)) := by
      refine ⟨by rw [← NNReal.coe_lt_coe]; norm_num, LipschitzWith.of_dist_le_mul fun x x' => ?_⟩
      rw [dist_eq_norm, dist_eq_norm, sub_sub_sub_cancel_left, norm_sub_rev]
      refine (hφ x x' t h h0 hh).trans ?_
      have := mul_le_mul_of_nonneg_right hκh (norm_nonneg (x - x'))
      simpa using this
    refine ⟨hc.fixedPoint, ?_⟩
    have := hc.fixedPoint_isFixedPt
    unfold Function.IsFixedPt at this
    have h2 : z = hc.fixedPoint + (φ hc.fixedPoint t h - hc.fixedPoint) := by
      rw [← sub_eq_iff_eq_add]
      exact this
    simpa using h2.symm
  · have h1 := hφ x x' t h h0 hh
    have e1 : φ x t h - φ x' t h = (x - x') + ((φ x t h - x) - (φ x' t h - x')) := by abel
    have e2 : x - x' = (φ x t h - φ x' t h) - ((φ x t h - x) - (φ x' t h - x')) := by abel
    have n1 := norm_add_le (x - x') ((φ x t h - x) - (φ x' t h - x'))
    rw [← e1] at n1
    have n2 := norm_sub_le (φ x t h - φ x' t h) ((φ x t h - x) - (φ x' t h - x'))
    rw [← e2] at n2
    have hn := norm_nonneg (x - x')
    constructor
    · have := Real.add_one_le_exp (κ * h)
      nlinarith
    · have h2 := exp_lower hκh0 hκh
      rw [← mul_assoc] at h2
      have h3 : (1 - κ * h) * ‖x - x'‖ ≤ ‖φ x t h - φ x' t h‖ := by linarith
      have h4 := mul_le_mul_of_nonneg_left h3 (Real.exp_pos (2 * κ * h)).le
      nlinarith

theorem propagate_bijective [CompleteSpace V] {κ Δ : ℝ} (hκ : 0 ≤ κ) (hκΔ : κ * Δ ≤ 1 / 2) {φ : V → ℝ → ℝ → V}
    (hφ : IncrementLipschitz κ Δ φ) : ∀ (ts : List ℝ) (t0 T : ℝ), (t0 :: ts).getLast? = some T →
      (∀ (k : ℕ) (t t' : ℝ), (t0 :: ts)[k]? = some t → (t0 :: ts)[k + 1]? = some t' → 0 ≤ t' - t ∧ t' - t ≤ Δ) →
      Function.Surjective (fun x => propagate φ x (t0 :: ts)) ∧
      ∀ x x', ‖propagate φ x (t0 :: ts) - propagate φ x' (t0 :: ts)‖ ≤ Real.exp (κ * (T - t0)) * ‖x - x'‖ ∧
        ‖x - x'‖ ≤ Real.exp (2 * κ * (T - t0)) * ‖propagate φ x (t0 :: ts) - propagate φ x' (t0 :: ts)‖ := by
  intro ts
  induction ts with
  | nil =>
    intro t0 T hT _
    simp only [List.getLast?_singleton, Option.some.injEq] at hT
    subst hT
    simp only [propagate, sub_self, mul_zero, Real.exp_zero, one_mul, le_refl, and_self, implies_true, and_true]
    exact fun z => ⟨z, rfl⟩
  | cons t1 ts ih =>
    intro t0 T hT hgap
    obtain ⟨g0, g1⟩ := hgap 0 t0 t1 (by simp) (by simp)
    obtain ⟨s1, b1⟩ := step_bijective hκ hκΔ hφ t0 (t1 - t0) g0 g1
    obtain ⟨s2, b2⟩ := ih t1 T (by rw [← getLast?_cons_cons]; exact hT) (fun k t t' hk hk' =>
      hgap (k + 1) t t' (by simpa using hk) (by simpa using hk'))
    refine ⟨s2.comp s1, fun x x' => ?_⟩
    obtain ⟨a1, a2⟩ := b1 x x'
    obtain ⟨c1, c2⟩ := b2 (φ x t0 (t1 - t0)) (φ x' t0 (t1 - t0))
    rw [propagate, propagate]
    have e1 : Real.exp (κ * (T - t0)) = Real.exp (κ * (T - t1)) * Real.exp (κ * (t1 - t0)) := by
      rw [← Real.exp_add]; ring_nf
    have e2 : Real.exp (2 * κ * (T - t0)) = Real.exp (2 * κ * (t1 - t0)) * Real.exp (2 * κ * (T - t1)) := by
      rw [← Real.exp_add]; ring_nf
    rw [e1, e2, mul_assoc, mul_assoc]
    exact ⟨c1.trans (mul_le_mul_of_nonneg_left a1 (Real.exp_pos _).le),
      a2.trans (mul_le_mul_of_nonneg_left c2 (Real.exp_pos _).le)⟩

theorem flowBijective_of {κ Δ : ℝ} [CompleteSpace V] (hκ : 0 ≤ κ) (hκΔ : κ * Δ ≤ 1 / 2) {φ : V → ℝ → ℝ → V}
    (hφ : IncrementLipschitz κ Δ φ) {solver : Solver (Except PyErr) ℝ V A} {f : ℝ → V → V} {args : A}
    (hs : SteppedBy solver f args φ) {t0 t1 T : ℝ} {rest : List ℝ} (hT : (t0 :: t1 :: rest).getLast? = some T)
    (hgap : ∀ (k : ℕ) (t t' : ℝ), (t0 :: t1 :: rest)[k]? = some t → (t0 :: t1 :: rest)[k + 1]? = some t' →
      0 ≤ t' - t ∧ t' - t ≤ Δ)
    (h0T : t0 ≤ T) (hsep : Separated (t0 :: t1 :: rest)) : FlowBijective κ solver args f (t0 :: t1 :: rest) t0 T := by
  have hdir : t0 ≤ t1 := sub_nonneg.1 (hgap 0 t0 t1 (by simp) (by simp)).1
  have hrun : ∀ x, odeintFixed (pureField f) x (t0 :: t1 :: rest) solver [] args =
      .ok (t0 :: t1 :: rest, gridStates φ x (t0 :: t1 :: rest)) := by
    intro x
    rw [odeintFixed_forward _ _ _ hdir, fixedOdeint_default _ (pure ()) φ hs.tick x _ (by simp) hsep, tickN_pure]
    rfl
  have hlast := fun x => gridStates_getLast φ x (t0 :: t1 :: rest) (by simp)
  obtain ⟨s, b⟩ := propagate_bijective hκ hκΔ hφ (t1 :: rest) t0 T hT hgap
  rw [FlowBijective, abs_of_nonneg (sub_nonneg.2 h0T)]
  constructor
  · intro z
    obtain ⟨x, hx⟩ := s z
    refine ⟨x, ⟨_, _, hrun x, by rw [hlast, ← hx]⟩, ?_⟩
    rintro x' ⟨ts, sol, hr, hl⟩
    rw [hrun] at hr
    cases hr
    rw [hlast, Option.some.injEq] at hl
    have := (b x' x).2
    rw [hl, ← hx, sub_self, norm_zero, mul_zero] at this
    exact sub_eq_zero.1 (norm_le_zero_iff.1 this)
  · intro x x' ts ts' sol sol' z z' hr hr' hz hz'
    rw [hrun] at hr hr'
    cases hr
    cases hr'
    rw [hlast, Option.some.injEq] at hz hz'
    subst hz hz'
    exact b x x'

theorem midpoint_increment {f : ℝ → V → V} {L Δ : ℝ} (hL0 : 0 ≤ L) (hL : ∀ t x y, ‖f t x - f t y‖ ≤ L * ‖x - y‖)
    (hΔ : Δ * L ≤ 1) :
    IncrementLipschitz (3 / 2 * L) Δ (fun x t h => x + h • f (t + (1 / 2 : ℝ) * h) (x + ((1 / 2 : ℝ) * h) • f t x)) := by
  intro x y t h h0 hh
  have hhL : h * L ≤ 1 := (mul_le_mul_of_nonneg_right hh hL0).trans hΔ
  simp only [add_sub_cancel_left]
  rw [← smul_sub, norm_smul, Real.norm_of_nonneg h0]
  have h1 := hL (t + (1 / 2 : ℝ) * h) (x + ((1 / 2 : ℝ) * h) • f t x) (y + ((1 / 2 : ℝ) * h) • f t y)
  have e1 : x + ((1 / 2 : ℝ) * h) • f t x - (y + ((1 / 2 : ℝ) * h) • f t y) = (x - y) + ((1 / 2 : ℝ) * h) • (f t x - f t y) := by
    rw [smul_sub]; abel
  have h2 : ‖x + ((1 / 2 : ℝ) * h) • f t x - (y + ((1 / 2 : ℝ) * h) • f t y)‖ ≤ 3 / 2 * ‖x - y‖ := by
    rw [e1]
    refine (norm_add_le _ _).trans ?_
    rw [norm_smul, Real.norm_of_nonneg (by positivity)]
    have h3 := mul_le_mul_of_nonneg_left (hL t x y) (show 0 ≤ (1 / 2 : ℝ) * h by positivity)
    have h4 := mul_le_mul_of_nonneg_right hhL (norm_nonneg (x - y))
    nlinarith
  have h5 := mul_le_mul_of_nonneg_left (h1.trans (mul_le_mul_of_nonneg_left h2 hL0)) h0
  linarith

/-- The solver classes of the fixed-step methods, with the constant of their increments for a field with Lipschitz
constant `L`. -/
inductive BijectiveMethod (V A : Type) [NormedAddCommGroup V] [NormedSpace ℝ V] (L : ℝ) :
    Solver (Except PyErr) ℝ V A → ℝ → Prop
  | euler : BijectiveMethod V A L (eulerSolver (Except PyErr) ℝ V A) L
  | midpoint : BijectiveMethod V A L (midpointSolver (Except PyErr) ℝ V A) (3 / 2 * L)
  | rk4 : BijectiveMethod V A L (rk4Solver (Except PyErr) ℝ V A) (2 * L)

theorem BijectiveMethod.increment {L κ Δ : ℝ} (hL0 : 0 ≤ L) {solver : Solver (Except PyErr) ℝ V A}
    (hm : BijectiveMethod V A L solver κ) (hΔ0 : 0 ≤ Δ) (hκΔ : κ * Δ ≤ 1 / 2) {f : ℝ → V → V}
    (hL : ∀ t x y, ‖f t x - f t y‖ ≤ L * ‖x - y‖) (args : A) :
    0 ≤ κ ∧ ∃ φ, SteppedBy solver f args φ ∧ IncrementLipschitz κ Δ φ := by
  have h0 : 0 ≤ L * Δ := by positivity
  cases hm with
  | euler => exact ⟨hL0, _, euler_steppedBy f args, euler_increment hL Δ⟩
  | midpoint => exact ⟨by positivity, _, midpoint_steppedBy f args, midpoint_increment hL0 hL (by nlinarith)⟩
  | rk4 => exact ⟨by positivity, _, rk4_steppedBy f args, rk4_increment hL0 hL (by nlinarith)⟩

/-- **C153.** For a field with Lipschitz constant `L`, integrating with `euler`, `midpoint` or `rk4` over an increasing grid
with steps at most `1 / (2 κ)`, where `κ` is `L`, `3 L / 2`, `2 L`, is a bijection of the state space, Lipschitz in both
directions. -/
theorem C153_bijective [CompleteSpace V] {L κ Δ : ℝ} (hL0 : 0 ≤ L) {solver : Solver (Except PyErr) ℝ V A}
    (hm : BijectiveMethod V A L solver κ) (hκΔ : κ * Δ ≤ 1 / 2) {f : ℝ → V → V}
    (hL : ∀ t x y, ‖f t x - f t y‖ ≤ L * ‖x - y‖) (args : A) {t0 t1 T : ℝ} {rest : List ℝ}
    (hmono : (t0 :: t1 :: rest).Pairwise (· < ·)) (hT : (t0 :: t1 :: rest).getLast? = some T)
    (hgap : ∀ (k : ℕ) (t t' : ℝ), (t0 :: t1 :: rest)[k]? = some t → (t0 :: t1 :: rest)[k + 1]? = some t' → t' - t ≤ Δ)
    (hsep : Separated (t0 :: t1 :: rest)) : FlowBijective κ solver args f (t0 :: t1 :: rest) t0 T := by
  have h01 : t0 < t1 := (List.pairwise_cons.1 hmono).1 t1 (by simp)
  have hΔ0 : 0 ≤ Δ := by linarith [hgap 0 t0 t1 (by simp) (by simp)]
  obtain ⟨hκ, φ, hs, hφ⟩ := hm.increment hL0 hΔ0 hκΔ hL args
  refine flowBijective_of hκ hκΔ hφ hs hT (fun k t t' hk hk' => ⟨?_, hgap k t t' hk hk'⟩) ?_ hsep
  · obtain ⟨h1, rfl⟩ := List.getElem?_eq_some_iff.1 hk
    obtain ⟨h2, rfl⟩ := List.getElem?_eq_some_iff.1 hk'
    exact sub_nonneg.2 (List.pairwise_iff_getElem.1 hmono k (k + 1) h1 h2 (by omega)).le
  · exact le_of_sorted_getLast hmono hT t0 (by simp)

/-- **C153.** The same over a decreasing grid. -/
theorem C153_bijective_backward [CompleteSpace V] {L κ Δ : ℝ} (hL0 : 0 ≤ L) {solver : Solver (Except PyErr) ℝ V A}
    (hm : BijectiveMethod V A L solver κ) (hκΔ : κ * Δ ≤ 1 / 2) {f : ℝ → V → V}
    (hL : ∀ t x y, ‖f t x - f t y‖ ≤ L * ‖x - y‖) (args : A) {t0 t1 T : ℝ} {rest : List ℝ}
    (hmono : (t0 :: t1 :: rest).Pairwise (· > ·)) (hT : (t0 :: t1 :: rest).getLast? = some T)
    (hgap : ∀ (k : ℕ) (t t' : ℝ), (t0 :: t1 :: rest)[k]? = some t → (t0 :: t1 :: rest)[k + 1]? = some t' → t - t' ≤ Δ)
    (hsep : Separated (t0 :: t1 :: rest)) : FlowBijective κ solver args f (t0 :: t1 :: rest) t0 T := by
  have hmap : -t0 :: -t1 :: rest.map (fun t => -t) = (t0 :: t1 :: rest).map (fun t => -t) := rfl
  have H := C153_bijective (κ := κ) (Δ := Δ) hL0 hm hκΔ (f := fun t x => -f (-t) x)
    (fun t x y => by rw [← norm_neg, neg_sub, neg_sub_neg, norm_sub_rev]; simpa [norm_sub_rev] using hL (-t) x y) args
    (t0 := -t0) (t1 := -t1) (T := -T) (rest := rest.map fun t => -t)
    (by rw [hmap, List.pairwise_map]; exact hmono.imp fun h => neg_lt_neg h)
    (by rw [hmap, List.getLast?_map, hT]; rfl)
    (by
      rw [hmap]
      intro k t t' hk hk'
      rw [List.getElem?_map, Option.map_eq_some_iff] at hk hk'
      obtain ⟨s, hs, rfl⟩ := hk
      obtain ⟨s', hs', rfl⟩ := hk'
      linarith [hgap k s s' hs hs'])
    (by rw [hmap]; exact (separated_neg _).2 hsep)
  have hvu : t1 < t0 := (List.pairwise_cons.1 hmono).1 t1 (by simp)
  rw [FlowBijective] at H ⊢
  simp only [odeintFixed_mirror _ _ hvu]
  have e : |T - t0| = |-T - -t0| := by rw [← abs_neg]; ring_nf
  rw [e]
  exact H

/-- **C153**, large steps: with `L Δ = 1` integration is no bijection: `euler` on `x' = -x` over `[0, 1]` in one step sends
every state to `0`, so nothing can be recovered from the result. -/
theorem C153_large_step_refuted :
    (∀ x : ℝ, odeintFixed (pureField fun _ x => -x) x [0, 1] (eulerSolver (Except PyErr) ℝ ℝ Unit) [] () =
      .ok ([0, 1], [x, 0])) ∧
    ∀ κ, ¬ FlowBijective κ (eulerSolver (Except PyErr) ℝ ℝ Unit) () (fun _ x => -x) [0, 1] 0 1 := by
  have hsep : Separated [(0 : ℝ), 1] := by
    simp only [Separated, Close, List.pairwise_cons, List.mem_cons, List.not_mem_nil, or_false, forall_eq, List.Pairwise.nil,
      IsEmpty.forall_iff, implies_true, and_true]
    norm_num
  have hrun : ∀ x : ℝ, odeintFixed (pureField fun _ x => -x) x [0, 1] (eulerSolver (Except PyErr) ℝ ℝ Unit) [] () =
      .ok ([0, 1], [x, 0]) := by
    intro x
    have hs := euler_steppedBy (K := ℝ) (V := ℝ) (A := Unit) (fun _ x => -x) ()
    rw [odeintFixed_forward _ _ _ zero_le_one, fixedOdeint_default _ (pure ()) _ hs.tick x _ (by simp) hsep, tickN_pure]
    simp [gridStates]
    rfl
  refine ⟨hrun, fun κ H => ?_⟩
  have := (H.2 1 0 _ _ _ _ 0 0 (hrun 1) (hrun 0) (by simp) (by simp)).2
  norm_num at this

/-- **C153**, exact recovery: the backward integration is not the inverse of the forward one: `euler` on `x' = x` over `[0, 1]`
in one step sends `x` to `2 x`, and over `[1, 0]` sends `2 x` to `0`. -/
theorem C153_exact_refuted (x : ℝ) :
    odeintFixed (pureField fun _ x => x) x [0, 1] (eulerSolver (Except PyErr) ℝ ℝ Unit) [] () = .ok ([0, 1], [x, 2 * x]) ∧
    odeintFixed (pureField fun _ x => x) (2 * x) [1, 0] (eulerSolver (Except PyErr) ℝ ℝ Unit) [] () =
      .ok ([-1, 0], [2 * x, 0]) := by
  have hsep : Separated [(0 : ℝ), 1] := by
    simp only [Separated, Close, List.pairwise_cons, List.mem_cons, List.not_mem_nil, or_false, forall_eq, List.Pairwise.nil,
      IsEmpty.forall_iff, implies_true, and_true]
    norm_num
  have hsep' : Separated [-(1 : ℝ), -0] := (separated_neg [1, 0]).2 (separated_reverse hsep)
  constructor
  · have hs := euler_steppedBy (K := ℝ) (V := ℝ) (A := Unit) (fun _ x => x) ()
    rw [odeintFixed_forward _ _ _ zero_le_one, fixedOdeint_default _ (pure ()) _ hs.tick x _ (by simp) hsep, tickN_pure]
    simp [gridStates, two_mul]
    rfl
  · have hs := euler_steppedBy (K := ℝ) (V := ℝ) (A := Unit) (fun _ x => -x) ()
    rw [odeintFixed_mirror _ _ zero_lt_one, odeintFixed_forward _ _ _ (by norm_num), List.map_nil,
      fixedOdeint_default _ (pure ()) _ hs.tick (2 * x) _ (by simp) hsep', tickN_pure]
    simp [gridStates]
    rfl

/-- Non-vacuity: `x' = x²` on `[0, 1/2]` for the round trip; `x' = -x` with a step of `1/2` for the bijection. -/
example : RoundTrip 4 (rk4Solver (Except PyErr) ℝ ℝ Unit) () (fun _ x => x ^ 2) 0 (1 / 2) :=
  C153_rk4 _ (contDiff_id.pow 2) _ _ _

example : FlowBijective 1 (eulerSolver (Except PyErr) ℝ ℝ Unit) () (fun _ x => -x) [0, 1 / 2, 1] 0 1 := by
  refine C153_bijective (L := 1) (Δ := 1 / 2) zero_le_one .euler (by norm_num) (fun t x y => ?_) () ?_ rfl ?_ ?_
  · rw [neg_sub_neg, one_mul, norm_sub_rev]
  · norm_num
  · intro k t t' hk hk'
    match k with
    | 0 => simp at hk hk'; subst hk hk'; norm_num
    | 1 => simp at hk hk'; subst hk hk'; norm_num
    | k + 2 => simp at hk'
  · simp only [Separated, Close, List.pairwise_cons, List.mem_cons, List.not_mem_nil, or_false, forall_eq_or_imp, forall_eq,
      List.Pairwise.nil, IsEmpty.forall_iff, implies_true, and_true]
    norm_num [abs_of_pos, abs_of_neg]

end Torchdyn
