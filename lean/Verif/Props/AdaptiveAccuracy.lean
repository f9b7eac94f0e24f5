import Mathlib.Analysis.SpecialFunctions.Trigonometric.Deriv
import Verif.Props.LocalConvergence
import Verif.Props.AdaptiveMore
import Verif.Props.LinearGrowth

/-!
Property C86: accuracy of whole adaptive integrations. Between two returned points the adaptive solver takes accepted steps
only, none of which is longer than the distance of the two points, so the order of a single step (C81) carries over.
-/

set_option linter.unusedSectionVars false
set_option linter.unusedSimpArgs false

namespace Torchdyn

open Spec Set

variable {ι A : Type} [Fintype ι] {solver : Solver (Except PyErr) ℝ (ι → ℝ) A} {args : A}

theorem dopri5_step_rk (f : ℝ → (ι → ℝ) → ι → ℝ) (x : ι → ℝ) (t h : ℝ) {k x' e st}
    (H : (dopri5Solver (Except PyErr) ℝ (ι → ℝ) A).step (fun t x => .ok (f t x)) x t h none args = .ok (.four k x' e st)) :
    x' = x + h • comb (constructDopri5 ℝ).bsol
      (rkStagesT f x t h ((0 :: (constructDopri5 ℝ).c).zip (butcherRows (constructDopri5 ℝ))) []) := by
  obtain ⟨k', x'', e', st', h1, h2⟩ := rk7_four (constructDopri5 ℝ) f x t h none args
  have h5 : (Except.ok (.four k' x'' e' st') : Except PyErr (StepOut (ι → ℝ))) = .ok (.four k x' e st) := by
    rw [← h1]; exact H
  have h3 := (dopri5_rk f x t h args).1
  have h4 : dopri5Step (m := Id) (pureField f) x t h none args = .four k' x'' e' st' := h2
  rw [h4] at h3
  cases h5
  exact h3

theorem tsit5_step_rk (f : ℝ → (ι → ℝ) → ι → ℝ) (x : ι → ℝ) (t h : ℝ) {k x' e st}
    (H : (tsit5Solver (Except PyErr) ℝ (ι → ℝ) A).step (fun t x => .ok (f t x)) x t h none args = .ok (.four k x' e st)) :
    x' = x + h • comb (constructTsit5 ℝ).bsol
      (rkStagesT f x t h ((0 :: (constructTsit5 ℝ).c).zip (butcherRows (constructTsit5 ℝ))) []) := by
  obtain ⟨k', x'', e', st', h1, h2⟩ := rk7_four (constructTsit5 ℝ) f x t h none args
  have h5 : (Except.ok (.four k' x'' e' st') : Except PyErr (StepOut (ι → ℝ))) = .ok (.four k x' e st) := by
    rw [← h1]; exact H
  have h3 := (tsit5_rk f x t h args).1
  have h4 : tsit5Step (m := Id) (pureField f) x t h none args = .four k' x'' e' st' := h2
  rw [h4] at h3
  cases h5
  exact h3

/-- An explicit Runge-Kutta update is Lipschitz in the state with constant `1 + Λ h`. -/
theorem rk_update_lipschitz {f : ℝ → (ι → ℝ) → ι → ℝ} {L δ : ℝ} (hL : 0 ≤ L) (hδ : 0 ≤ δ)
    (hLip : ∀ t x x', ‖f t x - f t x'‖ ≤ L * ‖x - x'‖) (rows : List (ℝ × List ℝ)) (b : List ℝ) :
    ∃ Λ, 0 ≤ Λ ∧ ∀ t h x x', 0 ≤ h → h ≤ δ →
      ‖x + h • comb b (rkStagesT f x t h rows []) - (x' + h • comb b (rkStagesT f x' t h rows []))‖ ≤
        (1 + Λ * h) * ‖x - x'‖ := by
  obtain ⟨Λ, hΛ, hlip⟩ := rkStagesT_lipschitz hL hδ hLip rows 0 le_rfl
  set S := (b.map abs).sum with hS
  have hs0 : 0 ≤ S := List.sum_nonneg (by simp +contextual)
  refine ⟨S * Λ, by positivity, fun t h x x' h0 h1 => ?_⟩
  have hc := comb_sub_le b (by positivity) (hlip t h x x' [] [] h0 h1 List.Forall₂.nil)
  have e : ∀ u u' : ι → ℝ, x + h • u - (x' + h • u') = (x - x') + h • (u - u') := by
    intro u u'; rw [smul_sub]; abel
  rw [e]
  refine (norm_add_le _ _).trans ?_
  rw [norm_smul, Real.norm_of_nonneg h0, add_mul, one_mul]
  refine add_le_add le_rfl ?_
  calc h * _ ≤ h * (S * (Λ * ‖x - x'‖)) := mul_le_mul_of_nonneg_left hc h0
    _ = _ := by ring

/-- Errors accumulate along accepted steps as in the discrete Grönwall lemma, as long as they stay below `ρ`. -/
theorem reached_error {f : ℝ → (ι → ℝ) → ι → ℝ} {y : ℝ → ι → ℝ} {sel : Finset ι} {atol rtol t0 T h Λ η ρ : ℝ} (hΛ : 0 ≤ Λ)
    (hη : 0 ≤ η) (hρ : η * (T - t0) * Real.exp (Λ * (T - t0)) ≤ ρ) {φ : (ι → ℝ) → ℝ → ℝ → ι → ℝ}
    (hstep : ∀ x t s k x' e st, solver.step (fun t x => .ok (f t x)) x t s none args = .ok (.four k x' e st) → x' = φ x t s)
    (hstab : ∀ t s x, t0 ≤ t → 0 ≤ s → s ≤ h → t + s ≤ T → ‖x - y t‖ ≤ ρ →
      ‖φ x t s - φ (y t) t s‖ ≤ (1 + Λ * s) * ‖x - y t‖)
    (hloc : ∀ t s, t0 ≤ t → 0 ≤ s → s ≤ h → t + s ≤ T → ‖φ (y t) t s - y (t + s)‖ ≤ η * s) {p q : Point ι}
    (hpq : Reached solver args f sel atol rtol p q) (hp : t0 ≤ p.1)
    (hpe : ‖p.2 - y p.1‖ ≤ η * (p.1 - t0) * Real.exp (Λ * (p.1 - t0))) (hqp : q.1 - p.1 ≤ h) (hq : q.1 ≤ T) :
    p.1 ≤ q.1 ∧ ‖q.2 - y q.1‖ ≤ η * (q.1 - t0) * Real.exp (Λ * (q.1 - t0)) := by
  induction hpq with
  | refl => exact ⟨le_rfl, hpe⟩
  | @tail q r _ hqr ih =>
    obtain ⟨hlt, k, e, st, hst, -⟩ := hqr
    obtain ⟨h1, h2⟩ := ih (by linarith) (by linarith)
    refine ⟨by linarith, ?_⟩
    set s := r.1 - q.1 with hs
    have hs0 : 0 < s := sub_pos.2 hlt
    have hr : r.1 = q.1 + s := by rw [hs]; ring
    have hx := hstep _ _ _ _ _ _ _ hst
    have h0q : 0 ≤ q.1 - t0 := by linarith
    have hqρ : ‖q.2 - y q.1‖ ≤ ρ := by
      refine h2.trans (le_trans ?_ hρ)
      have : q.1 - t0 ≤ T - t0 := by linarith
      have h0T : 0 ≤ T - t0 := by linarith
      gcongr
    have a1 := hstab q.1 s q.2 (by linarith) hs0.le (by linarith) (by linarith) hqρ
    have a2 := hloc q.1 s (by linarith) hs0.le (by linarith) (by linarith)
    have a3 : ‖r.2 - y r.1‖ ≤ (1 + Λ * s) * ‖q.2 - y q.1‖ + η * s := by
      rw [hx, hr]
      calc ‖φ q.2 q.1 s - y (q.1 + s)‖ = ‖(φ q.2 q.1 s - φ (y q.1) q.1 s) + (φ (y q.1) q.1 s - y (q.1 + s))‖ := by
            rw [sub_add_sub_cancel]
        _ ≤ _ := (norm_add_le _ _).trans (add_le_add a1 a2)
    have b1 : 1 + Λ * s ≤ Real.exp (Λ * s) := by linarith [Real.add_one_le_exp (Λ * s)]
    have b2 : Real.exp (Λ * (r.1 - t0)) = Real.exp (Λ * (q.1 - t0)) * Real.exp (Λ * s) := by
      rw [← Real.exp_add]; congr 1; rw [hr]; ring
    have b3 : 1 ≤ Real.exp (Λ * (r.1 - t0)) := Real.one_le_exp (mul_nonneg hΛ (by linarith))
    calc ‖r.2 - y r.1‖ ≤ (1 + Λ * s) * ‖q.2 - y q.1‖ + η * s := a3
      _ ≤ Real.exp (Λ * s) * (η * (q.1 - t0) * Real.exp (Λ * (q.1 - t0))) + η * s * Real.exp (Λ * (r.1 - t0)) := by
          refine add_le_add (mul_le_mul b1 h2 (norm_nonneg _) (Real.exp_nonneg _)) ?_
          exact le_mul_of_one_le_right (by positivity) b3
      _ = _ := by rw [b2, hr]; ring

/-- Consecutive elements of `ts` differ by at most `h`. -/
def GapsAtMost (h : ℝ) (ts : List ℝ) : Prop := ∀ (k : ℕ) (t t' : ℝ), ts[k]? = some t → ts[k + 1]? = some t' → t' - t ≤ h

theorem chain_error {f : ℝ → (ι → ℝ) → ι → ℝ} {y : ℝ → ι → ℝ} {sel : Finset ι} {atol rtol t0 T h Λ η ρ : ℝ} (hΛ : 0 ≤ Λ)
    (hη : 0 ≤ η) (hρ : η * (T - t0) * Real.exp (Λ * (T - t0)) ≤ ρ) {φ : (ι → ℝ) → ℝ → ℝ → ι → ℝ}
    (hstep : ∀ x t s k x' e st, solver.step (fun t x => .ok (f t x)) x t s none args = .ok (.four k x' e st) → x' = φ x t s)
    (hstab : ∀ t s x, t0 ≤ t → 0 ≤ s → s ≤ h → t + s ≤ T → ‖x - y t‖ ≤ ρ →
      ‖φ x t s - φ (y t) t s‖ ≤ (1 + Λ * s) * ‖x - y t‖)
    (hloc : ∀ t s, t0 ≤ t → 0 ≤ s → s ≤ h → t + s ≤ T → ‖φ (y t) t s - y (t + s)‖ ≤ η * s) {ts : List ℝ}
    {xs : List (ι → ℝ)} (h0 : ts[0]? = some t0) (hx0 : xs[0]? = some (y t0)) (hlen : ts.length = xs.length)
    (hT : ∀ t ∈ ts, t ≤ T) (hgap : GapsAtMost h ts)
    (hch : ∀ (i : ℕ) t z t' z', ts[i]? = some t → xs[i]? = some z → ts[i + 1]? = some t' → xs[i + 1]? = some z' →
      Reached solver args f sel atol rtol (t, z) (t', z')) :
    ∀ (k : ℕ) (t : ℝ) (x : ι → ℝ), ts[k]? = some t → xs[k]? = some x →
      t0 ≤ t ∧ ‖x - y t‖ ≤ η * (t - t0) * Real.exp (Λ * (t - t0)) := by
  intro k
  induction k with
  | zero =>
    intro t x ht hx
    rw [h0, Option.some.injEq] at ht
    rw [hx0, Option.some.injEq] at hx
    subst ht hx
    simp
  | succ k ih =>
    intro t' x' ht' hx'
    have hk : k + 1 < ts.length := (List.getElem?_eq_some_iff.1 ht').1
    obtain ⟨t, ht⟩ : ∃ t, ts[k]? = some t := ⟨_, List.getElem?_eq_getElem (by omega)⟩
    obtain ⟨x, hx⟩ : ∃ x, xs[k]? = some x := ⟨_, List.getElem?_eq_getElem (by omega)⟩
    obtain ⟨h1, h2⟩ := ih t x ht hx
    obtain ⟨h3, h4⟩ := reached_error hΛ hη hρ hstep hstab hloc (hch k t x t' x' ht hx ht' hx') h1 h2 (hgap k t t' ht ht')
      (hT t' (List.mem_of_getElem? ht'))
    exact ⟨h1.trans h3, h4⟩

theorem le_of_sorted_getLast {ts : List ℝ} (hs : ts.Pairwise (· < ·)) {l : ℝ} (hl : ts.getLast? = some l) : ∀ t ∈ ts, t ≤ l := by
  intro t ht
  obtain ⟨ys, rfl⟩ := List.getLast?_eq_some_iff.1 hl
  rcases List.mem_append.1 ht with h | h
  · exact ((List.pairwise_append.1 hs).2.2 t h l (by simp)).le
  · simp at h; rw [h]

/-- `ts`, `xs` are joined by accepted steps, start at `(t0, x0)` and stay below `T`. -/
def AcceptedRun (solver : Solver (Except PyErr) ℝ (ι → ℝ) A) (args : A) (f : ℝ → (ι → ℝ) → ι → ℝ) (sel : Finset ι)
    (atol rtol t0 T : ℝ) (x0 : ι → ℝ) (ts : List ℝ) (xs : List (ι → ℝ)) : Prop :=
  ts.Pairwise (· < ·) ∧ 2 ≤ ts.length ∧ ts[0]? = some t0 ∧ xs[0]? = some x0 ∧ ts.length = xs.length ∧ (∀ t ∈ ts, t ≤ T) ∧
    ∀ (i : ℕ) t z t' z', ts[i]? = some t → xs[i]? = some z → ts[i + 1]? = some t' → xs[i + 1]? = some z' →
      Reached solver args f sel atol rtol (t, z) (t', z')

theorem AcceptedRun.gap_nonneg {f : ℝ → (ι → ℝ) → ι → ℝ} {sel : Finset ι} {atol rtol t0 T h : ℝ} {x0 : ι → ℝ} {ts : List ℝ}
    {xs : List (ι → ℝ)} (H : AcceptedRun solver args f sel atol rtol t0 T x0 ts xs) (hgap : GapsAtMost h ts) : 0 ≤ h := by
  obtain ⟨g1, g2, -⟩ := H
  have h1 := hgap 0 ts[0] ts[1] (List.getElem?_eq_getElem _) (List.getElem?_eq_getElem _)
  have h2 := List.pairwise_iff_getElem.1 g1 0 1 (by omega) (by omega) (by omega)
  linarith

theorem AcceptedRun.error {f : ℝ → (ι → ℝ) → ι → ℝ} {y : ℝ → ι → ℝ} {t0 T h Λ η ρ atol rtol : ℝ} {sel : Finset ι} {ts : List ℝ}
    {xs : List (ι → ℝ)} (H : AcceptedRun solver args f sel atol rtol t0 T (y t0) ts xs) (hΛ : 0 ≤ Λ)
    (hη : 0 ≤ η) (hρ : η * (T - t0) * Real.exp (Λ * (T - t0)) ≤ ρ) {φ : (ι → ℝ) → ℝ → ℝ → ι → ℝ}
    (hstep : ∀ x t s k x' e st, solver.step (fun t x => .ok (f t x)) x t s none args = .ok (.four k x' e st) → x' = φ x t s)
    (hstab : ∀ t s x, t0 ≤ t → 0 ≤ s → s ≤ h → t + s ≤ T → ‖x - y t‖ ≤ ρ →
      ‖φ x t s - φ (y t) t s‖ ≤ (1 + Λ * s) * ‖x - y t‖)
    (hloc : ∀ t s, t0 ≤ t → 0 ≤ s → s ≤ h → t + s ≤ T → ‖φ (y t) t s - y (t + s)‖ ≤ η * s)
    (hgap : GapsAtMost h ts) (k : ℕ) (t : ℝ) (x : ι → ℝ) (ht : ts[k]? = some t) (hx : xs[k]? = some x) :
    ‖x - y t‖ ≤ η * (T - t0) * Real.exp (Λ * (T - t0)) := by
  obtain ⟨-, -, h0, hx0, hlen, htT, hch⟩ := H
  obtain ⟨h1, h2⟩ := chain_error hΛ hη hρ hstep hstab hloc h0 hx0 hlen htT hgap hch k t x ht hx
  have h3 := htT t (List.mem_of_getElem? ht)
  refine h2.trans ?_
  have h4 : Real.exp (Λ * (t - t0)) ≤ Real.exp (Λ * (T - t0)) :=
    Real.exp_le_exp.2 (mul_le_mul_of_nonneg_left (by linarith) hΛ)
  have h5 : 0 ≤ t - t0 := by linarith
  have h6 : 0 ≤ T - t0 := by linarith
  gcongr

/-- What `odeint` returns on an increasing grid without interpolator is an accepted run. -/
theorem odeint_acceptedRun (hs : FsalSolver solver args) {f : ℝ → (ι → ℝ) → ι → ℝ} {x0 : ι → ℝ} {t0 t1 T : ℝ} {rest : List ℝ}
    (hinc : Increasing (t0 :: t1 :: rest)) (hT : ∀ t ∈ t0 :: t1 :: rest, t ≤ T) {atol rtol : ℝ} {ui rae : Bool}
    (hi : ui = false ∨ solver.isTsit5 = true) {saveAt : List ℝ} {sel : Finset ι} {fuel : ℕ} {ts : List ℝ} {xs : List (ι → ℝ)}
    (hrun : odeint fuel (pureField f) x0 (t0 :: t1 :: rest) solver atol rtol ui rae saveAt args sel = .ok (some (ts, xs))) :
    AcceptedRun solver args f sel atol rtol t0 T x0 ts xs := by
  obtain ⟨h0, hx0, hlen, hch⟩ := C22_accepted hs f x0 t0 t1 rest hinc atol rtol ui rae hi saveAt sel fuel ts xs hrun
  obtain ⟨dt, hdt, -, e⟩ := odeint_forward fuel f x0 rest solver hs.adaptive atol rtol ui rae saveAt
    args sel (List.pairwise_cons.1 hinc |>.1 t1 (by simp)).le
  obtain ⟨r, hr, h'⟩ := adaptive_times hs f (f t0 x0) x0 hinc hdt atol rtol (odeintInterp solver ui) rae sel fuel
  rw [e, hr] at hrun
  obtain ⟨g1, g2, -, g4, -⟩ := h' ts xs (Except.ok.inj hrun)
  obtain ⟨l, hl⟩ : ∃ l, (t0 :: t1 :: rest).getLast? = some l := ⟨_, List.getLast?_eq_some_getLast (by simp)⟩
  refine ⟨g1, ?_, h0, hx0, hlen, fun t ht => ?_, hch⟩
  · simpa using g2.length_le.trans' (show 2 ≤ (t0 :: t1 :: rest).length by simp)
  · exact (le_of_sorted_getLast g1 (g4.trans hl) t ht).trans (hT l (List.mem_of_getLast? hl))

/-- On a decreasing grid it is an accepted run of the reversed field from `-t0`. -/
theorem odeint_acceptedRun_backward (hs : FsalSolver solver args) {f : ℝ → (ι → ℝ) → ι → ℝ} {x0 : ι → ℝ} {t0 t1 T : ℝ}
    {rest : List ℝ} (hdec : (t0 :: t1 :: rest).Pairwise (· > ·)) (hT : ∀ t ∈ t0 :: t1 :: rest, T ≤ t) {atol rtol : ℝ}
    {ui rae : Bool} (hi : ui = false ∨ solver.isTsit5 = true) {saveAt : List ℝ} {sel : Finset ι} {fuel : ℕ} {ts : List ℝ}
    {xs : List (ι → ℝ)}
    (hrun : odeint fuel (pureField f) x0 (t0 :: t1 :: rest) solver atol rtol ui rae saveAt args sel = .ok (some (ts, xs))) :
    AcceptedRun solver args (fun t x => -f (-t) x) sel atol rtol (-t0) (-T) x0 ts xs := by
  obtain ⟨h0, hx0, hlen, hch⟩ := C22_accepted_backward hs f x0 t0 t1 rest hdec atol rtol ui rae hi saveAt sel fuel ts xs hrun
  obtain ⟨dt, hdt, e⟩ := odeint_backward fuel f x0 rest solver hs.adaptive atol rtol ui rae saveAt
    args sel (List.pairwise_cons.1 hdec |>.1 t1 (by simp))
  have hinc : Increasing (-t0 :: -t1 :: rest.map (fun t => -t)) := increasing_neg hdec
  obtain ⟨r, hr, h'⟩ := adaptive_times hs (fun t x => -f (-t) x) (-f (-(-t0)) x0) x0 hinc hdt atol rtol
    (odeintInterp solver ui) rae sel fuel
  rw [e, List.map_cons, List.map_cons, hr] at hrun
  obtain ⟨g1, g2, -, g4, -⟩ := h' ts xs (Except.ok.inj hrun)
  obtain ⟨l, hl⟩ : ∃ l, (-t0 :: -t1 :: rest.map (fun t => -t)).getLast? = some l := ⟨_, List.getLast?_eq_some_getLast (by simp)⟩
  refine ⟨g1, ?_, h0, hx0, hlen, fun t ht => ?_, hch⟩
  · exact g2.length_le.trans' (show 2 ≤ (-t0 :: -t1 :: rest.map (fun t => -t)).length by simp)
  · refine (le_of_sorted_getLast g1 (g4.trans hl) t ht).trans ?_
    have hm : l ∈ (t0 :: t1 :: rest).map (fun t => -t) := List.mem_of_getLast? hl
    obtain ⟨u, hu, rfl⟩ := List.mem_map.1 hm
    exact neg_le_neg (hT u hu)

/-- An explicit Runge-Kutta update of a smooth field is Lipschitz near a solution, for small steps. -/
theorem rk_update_near {n : ℕ} (hn : n ≠ 0) {f : ℝ → (ι → ℝ) → ι → ℝ} (hf : ContDiff ℝ n (fun p : ℝ × (ι → ℝ) => f p.1 p.2))
    {y : ℝ → ι → ℝ} {t0 T : ℝ} (hy : ∀ t ∈ Icc t0 T, HasDerivWithinAt y (f t (y t)) (Icc t0 T) t)
    (rows : List (ℝ × List ℝ)) (b : List ℝ) :
    ∃ Λ δ, 0 ≤ Λ ∧ 0 < δ ∧ ∀ t s x, t0 ≤ t → 0 ≤ s → s ≤ δ → t + s ≤ T → ‖x - y t‖ ≤ 1 / 2 →
      ‖x + s • comb b (rkStagesT f x t s rows []) - (y t + s • comb b (rkStagesT f (y t) t s rows []))‖ ≤
        (1 + Λ * s) * ‖x - y t‖ := by
  obtain ⟨g, L, M, R, -, hL0, hL, hM, hR, hag, -⟩ := exists_cutoff_time hn hf hy
  obtain ⟨W, hW0, hW⟩ := exists_row_bound rows
  obtain ⟨Λ, hΛ, hlip⟩ := rk_update_lipschitz hL0 zero_le_one hL rows b
  have hM0 : 0 ≤ M := (norm_nonneg _).trans (hM 0 0)
  refine ⟨Λ, 1 / (2 * (W * M) + W + 1), hΛ, by positivity, fun t s x ht hs hsδ hT hx => ?_⟩
  have hWM : 0 ≤ W * M := by positivity
  rw [le_div_iff₀ (by positivity)] at hsδ
  have a2 : 0 ≤ s * (W * M) := by positivity
  have a3 : 0 ≤ s * W := by positivity
  have e1 : s * (W * M) ≤ 1 / 2 := by nlinarith
  have e2 : s * W ≤ 1 := by nlinarith
  have e3 : s ≤ 1 := by nlinarith
  have hyR := hR t ⟨ht, by linarith⟩
  have hxR : ‖x‖ ≤ ‖y t‖ + 1 / 2 := by
    have h2 : ‖x‖ ≤ ‖x - y t‖ + ‖y t‖ := by simpa using norm_add_le (x - y t) (y t)
    linarith
  rw [rkStagesT_congr hM hag hs (W := W) (by linarith) (by linarith) (by linarith) rows hW [] (by simp),
    rkStagesT_congr hM hag hs (W := W) (by linarith) (by linarith) (by linarith) rows hW [] (by simp)]
  exact hlip t s x (y t) hs e3

/-- The stages are Lipschitz near a solution, for small steps. -/
theorem rk_stages_lipschitz_near {n : ℕ} (hn : n ≠ 0) {f : ℝ → (ι → ℝ) → ι → ℝ}
    (hf : ContDiff ℝ n (fun p : ℝ × (ι → ℝ) => f p.1 p.2)) {y : ℝ → ι → ℝ} {t0 T : ℝ}
    (hy : ∀ t ∈ Icc t0 T, HasDerivWithinAt y (f t (y t)) (Icc t0 T) t) (rows : List (ℝ × List ℝ)) :
    ∃ Λ δ, 0 ≤ Λ ∧ 0 < δ ∧ ∀ t s x, t0 ≤ t → 0 ≤ s → s ≤ δ → t + s ≤ T → ‖x - y t‖ ≤ 1 / 2 →
      List.Forall₂ (fun k k' => ‖k - k'‖ ≤ Λ * ‖x - y t‖) (rkStagesT f x t s rows []) (rkStagesT f (y t) t s rows []) := by
  obtain ⟨g, L, M, R, -, hL0, hL, hM, hR, hag, -⟩ := exists_cutoff_time hn hf hy
  obtain ⟨W, hW0, hW⟩ := exists_row_bound rows
  obtain ⟨Λ, hΛ, hlip⟩ := rkStagesT_lipschitz hL0 zero_le_one hL rows 0 le_rfl
  have hM0 : 0 ≤ M := (norm_nonneg _).trans (hM 0 0)
  refine ⟨Λ, 1 / (2 * (W * M) + W + 1), hΛ, by positivity, fun t s x ht hs hsδ hT hx => ?_⟩
  have hWM : 0 ≤ W * M := by positivity
  rw [le_div_iff₀ (by positivity)] at hsδ
  have a2 : 0 ≤ s * (W * M) := by positivity
  have a3 : 0 ≤ s * W := by positivity
  have e1 : s * (W * M) ≤ 1 / 2 := by nlinarith
  have e2 : s * W ≤ 1 := by nlinarith
  have e3 : s ≤ 1 := by nlinarith
  have hyR := hR t ⟨ht, by linarith⟩
  have hxR : ‖x‖ ≤ ‖y t‖ + 1 / 2 := by
    have h2 : ‖x‖ ≤ ‖x - y t‖ + ‖y t‖ := by simpa using norm_add_le (x - y t) (y t)
    linarith
  rw [rkStagesT_congr hM hag hs (W := W) (by linarith) (by linarith) (by linarith) rows hW [] (by simp),
    rkStagesT_congr hM hag hs (W := W) (by linarith) (by linarith) (by linarith) rows hW [] (by simp)]
  exact hlip t s x (y t) [] [] hs e3 List.Forall₂.nil

/-- A step size from which on `a h^5 + b` is small. -/
theorem exists_pow_small {a : ℝ} (ha : 0 ≤ a) : ∃ δ, 0 < δ ∧ ∀ h, 0 ≤ h → h ≤ δ → a * h ^ 5 ≤ 1 / 4 := by
  refine ⟨1 / (4 * a + 1), by positivity, fun h h0 h1 => ?_⟩
  rw [le_div_iff₀ (by positivity)] at h1
  have h2 : h ≤ 1 := by nlinarith
  have h3 : h ^ 5 ≤ h := by simpa using pow_le_pow_of_le_one h0 h2 (show 1 ≤ 5 by norm_num)
  have h4 : a * h ^ 5 ≤ a * h := mul_le_mul_of_nonneg_left h3 ha
  nlinarith

/-- Accepted runs of `dopri5`. -/
theorem dopri5_run_error (f : ℝ → (ι → ℝ) → ι → ℝ) (hf : ContDiff ℝ 5 (fun p : ℝ × (ι → ℝ) => f p.1 p.2))
    (y : ℝ → ι → ℝ) (t0 T : ℝ) (hy : ∀ t ∈ Icc t0 T, HasDerivWithinAt y (f t (y t)) (Icc t0 T) t) (args : A) :
    ∃ C δ, 0 < δ ∧ ∀ (h atol rtol : ℝ) (sel : Finset ι) (ts : List ℝ) (xs : List (ι → ℝ)), h ≤ δ →
      AcceptedRun (dopri5Solver (Except PyErr) ℝ (ι → ℝ) A) args f sel atol rtol t0 T (y t0) ts xs → GapsAtMost h ts →
      ∀ (k : ℕ) (t : ℝ) (x : ι → ℝ), ts[k]? = some t → xs[k]? = some x → ‖x - y t‖ ≤ C * h ^ 5 := by
  obtain ⟨C, δ, hδ, H⟩ := C81_dopri5_order f hf y t0 T hy args
  obtain ⟨Λ, δ', hΛ, hδ', hlip⟩ := rk_update_near (n := 5) (by norm_num) (by exact_mod_cast hf) hy
    ((0 :: (constructDopri5 ℝ).c).zip (butcherRows (constructDopri5 ℝ))) (constructDopri5 ℝ).bsol
  obtain ⟨δ'', hδ'', hsm⟩ := exists_pow_small (a := |C| * |T - t0| * Real.exp (Λ * |T - t0|)) (by positivity)
  refine ⟨|C| * |T - t0| * Real.exp (Λ * |T - t0|), min δ (min δ' δ''), lt_min hδ (lt_min hδ' hδ''), ?_⟩
  intro h atol rtol sel ts xs hhδ hrun hgap k t x ht hx
  have h0 := hrun.gap_nonneg hgap
  have hT : t0 ≤ T := hrun.2.2.2.2.2.1 t0 (List.mem_of_getElem? hrun.2.2.1)
  rw [abs_of_nonneg (sub_nonneg.2 hT)] at hsm ⊢
  have d1 : h ≤ δ := hhδ.trans (min_le_left _ _)
  have d2 : h ≤ δ' := hhδ.trans ((min_le_right _ _).trans (min_le_left _ _))
  have d3 : h ≤ δ'' := hhδ.trans ((min_le_right _ _).trans (min_le_right _ _))
  have key := hrun.error (η := |C| * h ^ 5) (ρ := 1 / 2) hΛ (by positivity)
    (by
      have := hsm h h0 d3
      calc _ = |C| * (T - t0) * Real.exp (Λ * (T - t0)) * h ^ 5 := by ring
        _ ≤ 1 / 2 := by linarith)
    (fun x t s k x' e st hst => dopri5_step_rk f x t s hst)
    (fun t s x hs0 hs1 hs2 hs3 hx => hlip t s x hs0 hs1 (hs2.trans d2) hs3 hx)
    (fun t s hs0 hs1 hs2 hs3 => by
      have := (H t s hs0 hs1 (hs2.trans d1) hs3).1
      rw [(dopri5_rk f (y t) t s args).1] at this
      refine this.trans ?_
      calc C * s ^ 6 ≤ |C| * s ^ 6 := mul_le_mul_of_nonneg_right (le_abs_self C) (by positivity)
        _ = |C| * s ^ 5 * s := by ring
        _ ≤ |C| * h ^ 5 * s := by gcongr) hgap k t x ht hx
  calc ‖x - y t‖ ≤ _ := key
    _ = _ := by ring

/-- **C86.** `odeint` with `dopri5` and no interpolator, on a field that is five times continuously differentiable (no
Lipschitz constant is assumed), as long as its solution exists: every returned state differs from the exact solution by at most `C h^5`, where `h` bounds the gaps of
the returned times. `C` depends on the field and the interval only, not on the tolerances or the grid. With
`return_all_eval` the returned times are the accepted steps; without it they are the requested times. -/
theorem C86_dopri5 (f : ℝ → (ι → ℝ) → ι → ℝ) (hf : ContDiff ℝ 5 (fun p : ℝ × (ι → ℝ) => f p.1 p.2))
    (y : ℝ → ι → ℝ) (t0 T : ℝ)
    (hy : ∀ t ∈ Icc t0 T, HasDerivWithinAt y (f t (y t)) (Icc t0 T) t) (args : A) :
    ∃ C δ, 0 < δ ∧ ∀ (t1 : ℝ) (rest : List ℝ) (h atol rtol : ℝ) (rae : Bool) (saveAt : List ℝ) (sel : Finset ι) (fuel : ℕ)
      (ts : List ℝ) (xs : List (ι → ℝ)), h ≤ δ → Increasing (t0 :: t1 :: rest) → (∀ t ∈ t0 :: t1 :: rest, t ≤ T) →
      odeint fuel (pureField f) (y t0) (t0 :: t1 :: rest) (dopri5Solver (Except PyErr) ℝ (ι → ℝ) A) atol rtol false rae saveAt
        args sel = .ok (some (ts, xs)) →
      GapsAtMost h ts →
      ∀ (k : ℕ) (t : ℝ) (x : ι → ℝ), ts[k]? = some t → xs[k]? = some x → ‖x - y t‖ ≤ C * h ^ 5 := by
  obtain ⟨C, δ, hδ, H⟩ := dopri5_run_error f hf y t0 T hy args
  refine ⟨C, δ, hδ, ?_⟩
  intro t1 rest h atol rtol rae saveAt sel fuel ts xs hhδ hinc hT hrun hgap
  exact H h atol rtol sel ts xs hhδ (odeint_acceptedRun (dopri5_fsalSolver args) hinc hT (Or.inl rfl) hrun) hgap

/-- **C86.** On decreasing grids: `y` solves the equation on `[T, t0]` and the grid decreases from `t0`. The returned times are
the negated ones (see C21_times_backward), so the state at index `k` belongs to the time `-ts[k]`. -/
theorem C86_dopri5_backward (f : ℝ → (ι → ℝ) → ι → ℝ) (hf : ContDiff ℝ 5 (fun p : ℝ × (ι → ℝ) => f p.1 p.2))
    (y : ℝ → ι → ℝ) (t0 T : ℝ)
    (hy : ∀ t ∈ Icc T t0, HasDerivWithinAt y (f t (y t)) (Icc T t0) t) (args : A) :
    ∃ C δ, 0 < δ ∧ ∀ (t1 : ℝ) (rest : List ℝ) (h atol rtol : ℝ) (rae : Bool) (saveAt : List ℝ) (sel : Finset ι) (fuel : ℕ)
      (ts : List ℝ) (xs : List (ι → ℝ)), h ≤ δ → (t0 :: t1 :: rest).Pairwise (· > ·) → (∀ t ∈ t0 :: t1 :: rest, T ≤ t) →
      odeint fuel (pureField f) (y t0) (t0 :: t1 :: rest) (dopri5Solver (Except PyErr) ℝ (ι → ℝ) A) atol rtol false rae saveAt
        args sel = .ok (some (ts, xs)) →
      GapsAtMost h ts →
      ∀ (k : ℕ) (t : ℝ) (x : ι → ℝ), ts[k]? = some t → xs[k]? = some x → ‖x - y (-t)‖ ≤ C * h ^ 5 := by
  obtain ⟨C, δ, hδ, H⟩ := dopri5_run_error (fun t x => -f (-t) x)
    (ContDiff.neg (hf.comp ((contDiff_fst.neg).prodMk contDiff_snd))) (fun s => y (-s)) (-t0) (-T)
    (fun s hs => by
      have hm : -s ∈ Icc T t0 := ⟨by linarith [hs.2], by linarith [hs.1]⟩
      have h1 := (hy (-s) hm).scomp s (hasDerivAt_neg s).hasDerivWithinAt (s := Icc (-t0) (-T))
        (fun u hu => ⟨by linarith [hu.2], by linarith [hu.1]⟩)
      simpa [Function.comp_def] using h1) args
  refine ⟨C, δ, hδ, ?_⟩
  intro t1 rest h atol rtol rae saveAt sel fuel ts xs hhδ hdec hT hrun hgap
  refine H h atol rtol sel ts xs hhδ ?_ hgap
  have := odeint_acceptedRun_backward (dopri5_fsalSolver args) hdec hT (Or.inl rfl) hrun
  simpa using this

/-- **C86.** The same for `tsit5` on autonomous fields, up to the rounding of its decimals (C04, C81). An interpolator is never
used with `tsit5`, so `ui` is arbitrary. -/
theorem C86_tsit5 (F : (ι → ℝ) → ι → ℝ) (hF : ContDiff ℝ 5 F) (L : ℝ) (hL : 0 ≤ L)
    (hLip : ∀ x x', ‖F x - F x'‖ ≤ L * ‖x - x'‖) (y : ℝ → ι → ℝ) (t0 T : ℝ)
    (hy : ∀ t ∈ Icc t0 T, HasDerivWithinAt y (F (y t)) (Icc t0 T) t) (args : A) :
    ∃ C D δ, 0 < δ ∧ ∀ (t1 : ℝ) (rest : List ℝ) (h atol rtol : ℝ) (ui rae : Bool) (saveAt : List ℝ) (sel : Finset ι) (fuel : ℕ)
      (ts : List ℝ) (xs : List (ι → ℝ)), h ≤ δ → Increasing (t0 :: t1 :: rest) → (∀ t ∈ t0 :: t1 :: rest, t ≤ T) →
      odeint fuel (pureField fun _ => F) (y t0) (t0 :: t1 :: rest) (tsit5Solver (Except PyErr) ℝ (ι → ℝ) A) atol rtol ui rae
        saveAt args sel = .ok (some (ts, xs)) →
      GapsAtMost h ts →
      ∀ (k : ℕ) (t : ℝ) (x : ι → ℝ), ts[k]? = some t → xs[k]? = some x → ‖x - y t‖ ≤ C * h ^ 5 + 1 / 10 ^ 80 * D := by
  obtain ⟨C, D, δ, hδ, H⟩ := C81_tsit5_order F hF y t0 T hy args
  obtain ⟨Λ, hΛ, hlip⟩ := rk_update_lipschitz (f := fun _ => F) hL hδ.le (fun _ => hLip)
    ((0 :: (constructTsit5 ℝ).c).zip (butcherRows (constructTsit5 ℝ))) (constructTsit5 ℝ).bsol
  refine ⟨|C| * (T - t0) * Real.exp (Λ * (T - t0)), |D| * (T - t0) * Real.exp (Λ * (T - t0)), δ, hδ, ?_⟩
  intro t1 rest h atol rtol ui rae saveAt sel fuel ts xs hhδ hinc hT hrun hgap k t x ht hx
  have hacc := odeint_acceptedRun (tsit5_fsalSolver args) hinc hT (Or.inr rfl) hrun
  have h0 := hacc.gap_nonneg hgap
  have key := hacc.error (η := |C| * h ^ 5 + 1 / 10 ^ 80 * |D|) hΛ (by positivity) le_rfl
    (fun x t s k x' e st hst => tsit5_step_rk (fun _ => F) x t s hst)
    (fun t s x _ hs1 hs2 _ _ => hlip t s x (y t) hs1 (hs2.trans hhδ))
    (fun t s hs0 hs1 hs2 hs3 => by
      have := H t s hs0 hs1 (hs2.trans hhδ) hs3
      rw [(tsit5_rk (fun _ => F) (y t) t s args).1] at this
      refine this.trans ?_
      calc C * s ^ 6 + 1 / 10 ^ 80 * (D * s) ≤ |C| * s ^ 6 + 1 / 10 ^ 80 * (|D| * s) := by
            gcongr
            · exact le_abs_self C
            · exact le_abs_self D
        _ = |C| * s ^ 5 * s + 1 / 10 ^ 80 * |D| * s := by ring
        _ ≤ |C| * h ^ 5 * s + 1 / 10 ^ 80 * |D| * s := by gcongr
        _ = _ := by ring) hgap k t x ht hx
  calc ‖x - y t‖ ≤ _ := key
    _ = _ := by ring

theorem rkStagesT_bounded {g : ℝ → (ι → ℝ) → ι → ℝ} {M : ℝ} (hM : ∀ t x, ‖g t x‖ ≤ M) (x : ι → ℝ) (t h : ℝ) :
    ∀ (rows : List (ℝ × List ℝ)) (ks : List (ι → ℝ)), (∀ k ∈ ks, ‖k‖ ≤ M) → ∀ k ∈ rkStagesT g x t h rows ks, ‖k‖ ≤ M := by
  intro rows
  induction rows with
  | nil => intro ks hks; exact hks
  | cons r rows ih =>
    intro ks hks
    rw [rkStagesT]
    refine ih _ fun k hk => ?_
    rcases List.mem_append.1 hk with h | h
    · exact hks k h
    · rw [List.mem_singleton.1 h]; exact hM _ _

/-- Combinations of the stages are bounded near a solution, for small steps. -/
theorem rk_stages_near {n : ℕ} (hn : n ≠ 0) {f : ℝ → (ι → ℝ) → ι → ℝ} (hf : ContDiff ℝ n (fun p : ℝ × (ι → ℝ) => f p.1 p.2))
    {y : ℝ → ι → ℝ} {t0 T : ℝ} (hy : ∀ t ∈ Icc t0 T, HasDerivWithinAt y (f t (y t)) (Icc t0 T) t)
    (rows : List (ℝ × List ℝ)) (b : List ℝ) :
    ∃ E δ, 0 ≤ E ∧ 0 < δ ∧ ∀ t s x, t0 ≤ t → t ≤ T → 0 ≤ s → s ≤ δ → ‖x - y t‖ ≤ 1 / 2 →
      ‖comb b (rkStagesT f x t s rows [])‖ ≤ E := by
  obtain ⟨g, L, M, R, -, -, -, hM, hR, hag, -⟩ := exists_cutoff_time hn hf hy
  obtain ⟨W, hW0, hW⟩ := exists_row_bound rows
  have hM0 : 0 ≤ M := (norm_nonneg _).trans (hM 0 0)
  have hS : 0 ≤ (b.map abs).sum := List.sum_nonneg (by simp +contextual)
  refine ⟨(b.map abs).sum * M, 1 / (2 * (W * M) + W + 1), by positivity, by positivity, fun t s x ht hT hs hsδ hx => ?_⟩
  have hWM : 0 ≤ W * M := by positivity
  rw [le_div_iff₀ (by positivity)] at hsδ
  have a2 : 0 ≤ s * (W * M) := by positivity
  have a3 : 0 ≤ s * W := by positivity
  have e1 : s * (W * M) ≤ 1 / 2 := by nlinarith
  have e2 : s * W ≤ 1 := by nlinarith
  have hyR := hR t ⟨ht, hT⟩
  have hxR : ‖x‖ ≤ ‖y t‖ + 1 / 2 := by
    have h2 : ‖x‖ ≤ ‖x - y t‖ + ‖y t‖ := by simpa using norm_add_le (x - y t) (y t)
    linarith
  rw [rkStagesT_congr hM hag hs (W := W) (by linarith) (by linarith) (by linarith) rows hW [] (by simp)]
  exact comb_norm_le hM0 b _ (rkStagesT_bounded hM x t s rows [] (by simp))

theorem dopri5_step_err (f : ℝ → (ι → ℝ) → ι → ℝ) (x : ι → ℝ) (t h : ℝ) {k x' e st}
    (H : (dopri5Solver (Except PyErr) ℝ (ι → ℝ) A).step (fun t x => .ok (f t x)) x t h none args = .ok (.four k x' e st)) :
    e = h • comb (constructDopri5 ℝ).berr
      (rkStagesT f x t h ((0 :: (constructDopri5 ℝ).c).zip (butcherRows (constructDopri5 ℝ))) []) := by
  obtain ⟨k', x'', e', st', h1, h2⟩ := rk7_four (constructDopri5 ℝ) f x t h none args
  have h5 : (Except.ok (.four k' x'' e' st') : Except PyErr (StepOut (ι → ℝ))) = .ok (.four k x' e st) := by
    rw [← h1]; exact H
  have h3 := (dopri5_rk f x t h args).2
  have h4 : dopri5Step (m := Id) (pureField f) x t h none args = .four k' x'' e' st' := h2
  rw [h4] at h3
  cases h5
  exact Option.some.inj h3

/-- On a grid with gaps at most `h` there is a grid time in `(t, t + h]` for every time `t` before the last. -/
theorem exists_next {h t : ℝ} : ∀ (t0 : ℝ) (rest : List ℝ), (t0 :: rest).Pairwise (· < ·) → GapsAtMost h (t0 :: rest) → t0 ≤ t →
    (∃ b ∈ rest, t < b) → ∃ b ∈ rest, t < b ∧ b ≤ t + h := by
  intro t0 rest
  induction rest generalizing t0 with
  | nil => intro _ _ _ ⟨b, hb, _⟩; simp at hb
  | cons a rest ih =>
    intro hs hg h0 ⟨b, hb, hlt⟩
    by_cases hta : t < a
    · refine ⟨a, by simp, hta, ?_⟩
      have := hg 0 t0 a rfl rfl
      linarith
    · have hb' : b ∈ rest := by
        rcases List.mem_cons.1 hb with rfl | hb
        · exact absurd hlt hta
        · exact hb
      obtain ⟨c, hc, h1, h2⟩ := ih a (List.pairwise_cons.1 hs).2 (fun k u u' hu hu' => hg (k + 1) u u' hu hu') (not_lt.1 hta)
        ⟨b, hb', hlt⟩
      exact ⟨c, List.mem_cons_of_mem _ hc, h1, h2⟩

/-- `odeint` with `dopri5` returns on every grid whose gaps are small, along the solution of a smooth field. -/
theorem dopri5_returns_near (f : ℝ → (ι → ℝ) → ι → ℝ) (hf : ContDiff ℝ 5 (fun p : ℝ × (ι → ℝ) => f p.1 p.2))
    (y : ℝ → ι → ℝ) (t0 T : ℝ) (hy : ∀ t ∈ Icc t0 T, HasDerivWithinAt y (f t (y t)) (Icc t0 T) t) (args : A) :
    ∃ δ, 0 < δ ∧ ∀ (t1 : ℝ) (rest : List ℝ) (h atol rtol : ℝ) (rae : Bool) (saveAt : List ℝ) (sel : Finset ι), h ≤ δ →
      Increasing (t0 :: t1 :: rest) → (∀ t ∈ t0 :: t1 :: rest, t ≤ T) → GapsAtMost h (t0 :: t1 :: rest) →
      0 < atol → 0 ≤ rtol →
      ∃ fuel ts xs, odeint fuel (pureField f) (y t0) (t0 :: t1 :: rest) (dopri5Solver (Except PyErr) ℝ (ι → ℝ) A) atol rtol
          false rae saveAt args sel = .ok (some (ts, xs)) := by
  obtain ⟨C, δ, hδ, H⟩ := C81_dopri5_order f hf y t0 T hy args
  obtain ⟨Λ, δ', hΛ, hδ', hlip⟩ := rk_update_near (n := 5) (by norm_num) (by exact_mod_cast hf) hy
    ((0 :: (constructDopri5 ℝ).c).zip (butcherRows (constructDopri5 ℝ))) (constructDopri5 ℝ).bsol
  obtain ⟨E, δe, hE, hδe, herr⟩ := rk_stages_near (n := 5) (by norm_num) (by exact_mod_cast hf) hy
    ((0 :: (constructDopri5 ℝ).c).zip (butcherRows (constructDopri5 ℝ))) (constructDopri5 ℝ).berr
  obtain ⟨δ'', hδ'', hsm⟩ := exists_pow_small (a := |C| * |T - t0| * Real.exp (Λ * |T - t0|)) (by positivity)
  refine ⟨min δ (min δ' δ''), lt_min hδ (lt_min hδ' hδ''), ?_⟩
  intro t1 rest h atol rtol rae saveAt sel hhδ hinc hT hgap hat hrt
  have hs := dopri5_fsalSolver (ι := ι) args
  have h01 : t0 < t1 := (List.pairwise_cons.1 hinc).1 t1 (by simp)
  have h0 : 0 ≤ h := by
    have := hgap 0 t0 t1 rfl rfl
    linarith
  have h0T : t0 ≤ T := hT t0 (by simp)
  rw [abs_of_nonneg (sub_nonneg.2 h0T)] at hsm
  have d1 : h ≤ δ := hhδ.trans (min_le_left _ _)
  have d2 : h ≤ δ' := hhδ.trans ((min_le_right _ _).trans (min_le_left _ _))
  have d3 : h ≤ δ'' := hhδ.trans ((min_le_right _ _).trans (min_le_right _ _))
  set η := |C| * h ^ 5 with hη
  have hη0 : 0 ≤ η := by positivity
  have htube : ∀ t, t0 ≤ t → t ≤ T → η * (t - t0) * Real.exp (Λ * (t - t0)) ≤ 1 / 2 := by
    intro t ht0 htT
    have h1 : t - t0 ≤ T - t0 := by linarith
    have h2 : 0 ≤ t - t0 := by linarith
    have h3 : 0 ≤ T - t0 := by linarith
    calc η * (t - t0) * Real.exp (Λ * (t - t0)) ≤ η * (T - t0) * Real.exp (Λ * (T - t0)) := by gcongr
      _ = |C| * (T - t0) * Real.exp (Λ * (T - t0)) * h ^ 5 := by rw [hη]; ring
      _ ≤ 1 / 2 := by linarith [hsm h h0 d3]
  obtain ⟨Tl, hTl⟩ : ∃ Tl, (t1 :: rest).getLast? = some Tl := ⟨_, List.getLast?_eq_some_getLast (by simp)⟩
  have hTlm : Tl ∈ t1 :: rest := List.mem_of_getLast? hTl
  have hTlT : Tl ≤ T := hT Tl (List.mem_cons_of_mem _ hTlm)
  obtain ⟨dt, hdt, hinit, -⟩ := odeint_forward 0 f (y t0) rest (dopri5Solver (Except PyErr) ℝ (ι → ℝ) A) hs.adaptive atol rtol
    false rae saveAt args sel h01.le
  set δs := min δe (atol / (2 * (E + 1))) with hδs
  obtain ⟨fuel, ts, xs, hrun⟩ := adaptive_terminates_good hs (by norm_num [dopri5Solver]) rfl rfl rfl f hinc hTl atol rtol
    (odeintInterp (dopri5Solver (Except PyErr) ℝ (ι → ℝ) A) false) rae sel (δ := δs) (lt_min hδe (by positivity))
    (fun x t k => k = f t x ∧ ‖x - y t‖ ≤ η * (t - t0) * Real.exp (Λ * (t - t0)))
    (by
      rintro x t dt k1 x' e st ⟨rfl, hx⟩ ht0 hdt hle hnext hst
      refine ⟨rfl, ?_⟩
      obtain ⟨b, hb, hb1, hb2⟩ := exists_next t0 (t1 :: rest) hinc hgap ht0 ⟨Tl, hTlm, by linarith⟩
      have hdth : dt ≤ h := by
        have := hnext rfl b hb hb1
        linarith
      rw [hs.first_stage] at hst
      have hx' := dopri5_step_rk f x t dt hst
      have b1 := hlip t dt x ht0 hdt.le (hdth.trans d2) (by linarith) (hx.trans (htube t ht0 (by linarith)))
      have b2 := (H t dt ht0 hdt.le (hdth.trans d1) (by linarith)).1
      rw [(dopri5_rk f (y t) t dt args).1] at b2
      have b3 : C * dt ^ 6 ≤ η * dt := by
        calc C * dt ^ 6 ≤ |C| * dt ^ 6 := mul_le_mul_of_nonneg_right (le_abs_self C) (by positivity)
          _ = |C| * dt ^ 5 * dt := by ring
          _ ≤ |C| * h ^ 5 * dt := by gcongr
      have b4 : ‖x' - y (t + dt)‖ ≤ (1 + Λ * dt) * ‖x - y t‖ + η * dt := by
        rw [hx']
        refine (norm_sub_le_norm_sub_add_norm_sub _ _ _).trans (add_le_add b1 (b2.trans b3))
      have c1 : 1 + Λ * dt ≤ Real.exp (Λ * dt) := by linarith [Real.add_one_le_exp (Λ * dt)]
      have c2 : Real.exp (Λ * (t + dt - t0)) = Real.exp (Λ * (t - t0)) * Real.exp (Λ * dt) := by
        rw [← Real.exp_add]; congr 1; ring
      have c3 : 1 ≤ Real.exp (Λ * (t + dt - t0)) := Real.one_le_exp (mul_nonneg hΛ (by linarith))
      calc ‖x' - y (t + dt)‖ ≤ (1 + Λ * dt) * ‖x - y t‖ + η * dt := b4
        _ ≤ Real.exp (Λ * dt) * (η * (t - t0) * Real.exp (Λ * (t - t0))) + η * dt * Real.exp (Λ * (t + dt - t0)) := by
            refine add_le_add (mul_le_mul c1 hx (norm_nonneg _) (Real.exp_nonneg _)) ?_
            exact le_mul_of_one_le_right (by positivity) c3
        _ = _ := by rw [c2]; ring)
    (by
      rintro x t dt k1 k x' e st ⟨rfl, hx⟩ ht0 htT hdt hle hst
      rw [hs.first_stage] at hst
      have he := dopri5_step_err f x t dt hst
      have hb := herr t dt x ht0 (by linarith) hdt.le (hle.trans (min_le_left _ _)) (hx.trans (htube t ht0 (by linarith)))
      have hb' : ∀ i, |e i| ≤ E * dt := by
        intro i
        refine (norm_le_pi_norm e i).trans ?_
        rw [he, norm_smul, Real.norm_of_nonneg hdt.le, mul_comm]
        exact mul_le_mul_of_nonneg_right hb hdt.le
      refine lt_of_le_of_lt (errorNorm_le sel atol rtol hat hrt x x' _ (E * dt) (by positivity) hb') ?_
      rw [div_lt_one hat]
      have e1 : (E + 1) * dt ≤ (E + 1) * (atol / (2 * (E + 1))) :=
        mul_le_mul_of_nonneg_left (hle.trans (min_le_right _ _)) (by positivity)
      have e2 : (E + 1) * (atol / (2 * (E + 1))) = atol / 2 := by field_simp
      rw [e2] at e1
      linarith)
    (f t0 (y t0)) (y t0) ⟨rfl, by simp⟩ hdt
  obtain ⟨dt', _, hinit', e⟩ := odeint_forward fuel f (y t0) rest (dopri5Solver (Except PyErr) ℝ (ι → ℝ) A) hs.adaptive atol
    rtol false rae saveAt args sel h01.le
  rw [hinit] at hinit'
  cases hinit'
  exact ⟨fuel, ts, xs, by rw [e]; exact hrun⟩

/-- **C86.** Total correctness: along every solution of a field with five continuous derivatives (no Lipschitz or growth
condition), positive tolerances and a grid with gaps at most `h ≤ δ`, `odeint` with `dopri5` returns the requested times with
states within `C h^5` of the exact solution. -/
theorem C86_dopri5_total (f : ℝ → (ι → ℝ) → ι → ℝ) (hf : ContDiff ℝ 5 (fun p : ℝ × (ι → ℝ) => f p.1 p.2))
    (y : ℝ → ι → ℝ) (t0 T : ℝ) (hy : ∀ t ∈ Icc t0 T, HasDerivWithinAt y (f t (y t)) (Icc t0 T) t) (args : A) :
    ∃ C δ, 0 < δ ∧ ∀ (t1 : ℝ) (rest : List ℝ) (h atol rtol : ℝ) (saveAt : List ℝ) (sel : Finset ι), h ≤ δ →
      Increasing (t0 :: t1 :: rest) → (∀ t ∈ t0 :: t1 :: rest, t ≤ T) → GapsAtMost h (t0 :: t1 :: rest) →
      0 < atol → 0 ≤ rtol →
      ∃ fuel xs, odeint fuel (pureField f) (y t0) (t0 :: t1 :: rest) (dopri5Solver (Except PyErr) ℝ (ι → ℝ) A) atol rtol false
          false saveAt args sel = .ok (some (t0 :: t1 :: rest, xs)) ∧ xs.length = (t0 :: t1 :: rest).length ∧
        ∀ (k : ℕ) (t : ℝ) (x : ι → ℝ), (t0 :: t1 :: rest)[k]? = some t → xs[k]? = some x → ‖x - y t‖ ≤ C * h ^ 5 := by
  obtain ⟨C, δ, hδ, H⟩ := C86_dopri5 f hf y t0 T hy args
  obtain ⟨δ', hδ', H'⟩ := dopri5_returns_near f hf y t0 T hy args
  refine ⟨C, min δ δ', lt_min hδ hδ', ?_⟩
  intro t1 rest h atol rtol saveAt sel hhδ hinc hT hgap hat hrt
  obtain ⟨fuel, ts, xs, hrun⟩ := H' t1 rest h atol rtol false saveAt sel (hhδ.trans (min_le_right _ _)) hinc hT hgap hat hrt
  obtain ⟨r, hr, h21⟩ := C21_times (dopri5_fsalSolver args) f (y t0) t0 t1 rest hinc atol rtol false saveAt sel fuel
  rw [hrun] at hr
  obtain ⟨rfl, hlen, -⟩ := h21 ts xs (Except.ok.inj hr).symm
  exact ⟨fuel, xs, hrun, hlen, H t1 rest h atol rtol false saveAt sel fuel _ xs (hhδ.trans (min_le_left _ _)) hinc hT hrun hgap⟩

/-- C86 applied to `x' = -x + sin t + cos t` with the solution `sin t`. -/
example : ∃ C δ, 0 < δ ∧ ∀ (t1 : ℝ) (rest : List ℝ) (h atol rtol : ℝ) (saveAt : List ℝ) (sel : Finset (Fin 1)), h ≤ δ →
    Increasing (0 :: t1 :: rest) → (∀ t ∈ 0 :: t1 :: rest, t ≤ 3) → GapsAtMost h (0 :: t1 :: rest) → 0 < atol → 0 ≤ rtol →
    ∃ fuel xs, odeint fuel (pureField fun t x => -x + fun _ => Real.sin t + Real.cos t) (fun _ => Real.sin 0) (0 :: t1 :: rest)
        (dopri5Solver (Except PyErr) ℝ (Fin 1 → ℝ) Unit) atol rtol false false saveAt () sel =
          .ok (some (0 :: t1 :: rest, xs)) ∧ xs.length = (0 :: t1 :: rest).length ∧
      ∀ (k : ℕ) (t : ℝ) (x : Fin 1 → ℝ), (0 :: t1 :: rest)[k]? = some t → xs[k]? = some x →
        ‖x - fun _ => Real.sin t‖ ≤ C * h ^ 5 := by
  refine C86_dopri5_total (fun t x => -x + fun _ => Real.sin t + Real.cos t) ?_ (fun t _ => Real.sin t) 0 3 ?_ ()
  · refine contDiff_snd.neg.add (contDiff_pi.2 fun _ => ?_)
    exact (Real.contDiff_sin.comp contDiff_fst).add (Real.contDiff_cos.comp contDiff_fst)
  · intro t _
    refine hasDerivWithinAt_pi.2 fun i => ?_
    have := (Real.hasDerivAt_sin t).hasDerivWithinAt (s := Icc 0 3)
    simpa using this

/-- C86 applied to `x' = x²`, whose solution `1 / (1 - t)` from 1 blows up at time 1, on `[0, 1/2]`. -/
example : ∃ C δ, 0 < δ ∧ ∀ (t1 : ℝ) (rest : List ℝ) (h atol rtol : ℝ) (saveAt : List ℝ) (sel : Finset (Fin 1)), h ≤ δ →
    Increasing (0 :: t1 :: rest) → (∀ t ∈ 0 :: t1 :: rest, t ≤ 1 / 2) → GapsAtMost h (0 :: t1 :: rest) → 0 < atol → 0 ≤ rtol →
    ∃ fuel xs, odeint fuel (pureField fun _ x i => x i ^ 2) (fun _ => (1 - 0)⁻¹) (0 :: t1 :: rest)
        (dopri5Solver (Except PyErr) ℝ (Fin 1 → ℝ) Unit) atol rtol false false saveAt () sel =
          .ok (some (0 :: t1 :: rest, xs)) ∧ xs.length = (0 :: t1 :: rest).length ∧
      ∀ (k : ℕ) (t : ℝ) (x : Fin 1 → ℝ), (0 :: t1 :: rest)[k]? = some t → xs[k]? = some x →
        ‖x - fun _ => (1 - t)⁻¹‖ ≤ C * h ^ 5 := by
  refine C86_dopri5_total (fun _ x i => x i ^ 2) ?_ (fun t _ => (1 - t)⁻¹) 0 (1 / 2) ?_ ()
  · exact contDiff_pi.2 fun i => ((contDiff_apply ℝ ℝ i).comp contDiff_snd).pow 2
  · intro t ht
    refine hasDerivWithinAt_pi.2 fun i => ?_
    have h0 : (1 - t) ≠ 0 := by have := ht.2; intro h; linarith
    have h1 := (((hasDerivAt_id t).const_sub 1).inv h0).hasDerivWithinAt (s := Icc 0 (1 / 2))
    refine h1.congr_deriv ?_
    simp

end Torchdyn
