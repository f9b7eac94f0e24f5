import Verif.Spec.BouncingBall
import Verif.Props.HybridTermination

/-!
C152: a bouncing ball integrated by `odeint_hybrid` with `dopri5`.
-/

namespace Torchdyn

open Spec

variable {A : Type} {args : A}

/-! ### The flow -/

theorem ballFlow_add (g a b : ℝ) (x : Bool → ℝ) : ballFlow g b (ballFlow g a x) = ballFlow g (a + b) x := by
  funext i
  cases i
  · simp only [ballFlow, Bool.false_eq_true, if_false, if_true]; ring
  · simp only [ballFlow, if_true]; ring

theorem ballFlow_zero (g : ℝ) (x : Bool → ℝ) : ballFlow g 0 x = x := by
  funext i
  cases i <;> simp [ballFlow]

theorem ballEnergy_flow (g s : ℝ) (x : Bool → ℝ) : ballEnergy g (ballFlow g s x) = ballEnergy g x := by
  simp only [ballEnergy, ballFlow, Bool.false_eq_true, if_false, if_true]
  ring

theorem ball_step (g : ℝ) (x : Bool → ℝ) (t h : ℝ) {k x' e : Bool → ℝ} {st : List (Bool → ℝ)}
    (H : (dopri5Solver (Except PyErr) ℝ (Bool → ℝ) A).step (fun t x => .ok (ballField g t x)) x t h none args =
      .ok (.four k x' e st)) : x' = ballFlow g h x ∧ e = fun _ => 0 := by
  have H' : rk7Step (m := Except PyErr) (constructDopri5 ℝ) (pureField (ballField g)) x t h none args = .ok (.four k x' e st) := H
  simp only [rk7Step, firstStage, pureField, bind, Except.bind, pure, Except.pure] at H'
  cases H'
  constructor
  · funext i
    cases i
    · simp only [Pi.smul_apply, Pi.add_apply, smul_eq_mul, ballField, ballFlow, Bool.false_eq_true, if_false, if_true,
        constructDopri5, dopri5Bsol, nth, nth2, List.getD_cons_zero, List.getD_cons_succ]
      ring
    · simp only [Pi.smul_apply, Pi.add_apply, smul_eq_mul, ballField, ballFlow, if_true,
        constructDopri5, dopri5Bsol, nth, List.getD_cons_zero, List.getD_cons_succ]
      ring
  · funext i
    cases i
    · simp only [Pi.smul_apply, Pi.add_apply, smul_eq_mul, ballField, Bool.false_eq_true, if_false, if_true,
        constructDopri5, dopri5Bsol, dopri5Bhat, nth, nth2, List.zipWith, List.getD_cons_zero, List.getD_cons_succ]
      ring
    · simp only [Pi.smul_apply, Pi.add_apply, smul_eq_mul, ballField, if_true,
        constructDopri5, dopri5Bsol, dopri5Bhat, nth, List.zipWith, List.getD_cons_zero, List.getD_cons_succ]
      ring

theorem ball_anyStep {g : ℝ} {p q : Point Bool}
    (h : AnyStep (dopri5Solver (Except PyErr) ℝ (Bool → ℝ) A) args (ballField g) p q) : q.2 = ballFlow g (q.1 - p.1) p.2 := by
  obtain ⟨k, e, st, h⟩ := h
  exact (ball_step g _ _ _ h).1

theorem ball_reach {g : ℝ} {p q : Point Bool}
    (h : FwdReach (dopri5Solver (Except PyErr) ℝ (Bool → ℝ) A) args (ballField g) p q) :
    p.1 ≤ q.1 ∧ q.2 = ballFlow g (q.1 - p.1) p.2 := by
  induction h with
  | refl => exact ⟨le_refl _, by rw [sub_self, ballFlow_zero]⟩
  | @tail b c _ hst ih =>
    refine ⟨ih.1.trans hst.1, ?_⟩
    rw [ball_anyStep hst.2, ih.2, ballFlow_add]
    congr 1
    ring

theorem quiet_ball {c : ℝ} {p : Point Bool} : Quiet [bounceCallback c] p ↔ ¬ (p.2 false ≤ 0 ∧ p.2 true ≤ 0) := by
  simp [Quiet, bounceCallback]

theorem first_ball {c : ℝ} {p : Point Bool} {cb : EventCallback ℝ (Bool → ℝ)} (h : FirstActive [bounceCallback c] p cb) :
    cb = bounceCallback c ∧ p.2 false ≤ 0 ∧ p.2 true ≤ 0 := by
  obtain ⟨i, hi, h2, -⟩ := h
  have := List.mem_of_getElem? hi
  rw [List.mem_singleton] at this
  subst this
  exact ⟨rfl, by simpa [bounceCallback] using h2⟩

theorem ball_persistent {g : ℝ} (hg : 0 ≤ g) (c : ℝ) :
    Persistent (dopri5Solver (Except PyErr) ℝ (Bool → ℝ) A) args (ballField g) [bounceCallback c] := by
  intro p q r h1 h2 h3 h4
  rw [quiet_ball, not_not] at h4 ⊢
  have e : r.2 = ballFlow g (r.1 - q.1) q.2 := by
    rw [(ball_reach h2).2, (ball_reach h1).2, ballFlow_add]
    congr 1
    ring
  set d := r.1 - q.1 with hd
  have hd0 : 0 ≤ d := sub_nonneg.2 h3
  have hgd : 0 ≤ g * d := mul_nonneg hg hd0
  rw [e]
  simp only [ballFlow, Bool.false_eq_true, if_false, if_true]
  constructor
  · nlinarith [h4.1, mul_nonneg (neg_nonneg.2 h4.2) hd0, mul_nonneg hg (sq_nonneg d)]
  · linarith [h4.2]

/-- A ball above the floor that has not been seen below it is still above it. -/
theorem ball_above {g c : ℝ} (hg : 0 ≤ g) {p q : Point Bool} (hp : 0 < p.2 false) (hle : p.1 ≤ q.1)
    (hq : q.2 = ballFlow g (q.1 - p.1) p.2) (hqu : Quiet [bounceCallback c] q) : 0 < q.2 false := by
  rw [quiet_ball] at hqu
  by_contra hn
  have hv : 0 < q.2 true := by
    by_contra hv
    exact hqu ⟨not_lt.1 hn, not_lt.1 hv⟩
  have e1 := congrFun hq false
  have e2 := congrFun hq true
  set d := q.1 - p.1 with hd
  have hd0 : 0 ≤ d := sub_nonneg.2 hle
  simp only [ballFlow, Bool.false_eq_true, if_false, if_true] at e1 e2
  have : q.2 false = p.2 false + q.2 true * d + g * d ^ 2 / 2 := by rw [e1, e2]; ring
  have h1 : 0 ≤ q.2 true * d := mul_nonneg hv.le hd0
  have h2 : 0 ≤ g * d ^ 2 / 2 := by positivity
  linarith

theorem ball_quiet_reach {g c : ℝ} (hg : 0 ≤ g) {p q : Point Bool} (hp : 0 < p.2 false)
    (h : FwdQuiet (dopri5Solver (Except PyErr) ℝ (Bool → ℝ) A) args (ballField g) [bounceCallback c] p q) :
    p.1 ≤ q.1 ∧ q.2 = ballFlow g (q.1 - p.1) p.2 ∧ 0 < q.2 false := by
  have := ball_reach h.fwd
  refine ⟨this.1, this.2, ?_⟩
  rcases Relation.ReflTransGen.cases_tail h with h' | ⟨_, _, -, -, h'⟩
  · rw [h']; exact hp
  · exact ball_above hg hp this.1 this.2 h'

/-! ### What is returned -/

theorem ballRun_of_located {g c tol : ℝ} (hg : 0 ≤ g) {sel : Finset Bool} {atol rtol : ℝ} {p : Point Bool} {l : List (Point Bool)}
    (h : LocatedTrace (dopri5Solver (Except PyErr) ℝ (Bool → ℝ) A) args (ballField g) sel atol rtol tol [bounceCallback c] p l) :
    0 < p.2 false → ((p :: l).map Prod.fst).Pairwise (· ≤ ·) → ∃ n, BallRun g c tol n p l := by
  induction h with
  | nil p => exact fun _ _ => ⟨0, .nil p⟩
  | @flow p q l h1 h2 _ ih =>
    intro hp hs
    rw [List.map_cons, List.pairwise_cons] at hs
    have hle : p.1 ≤ q.1 := hs.1 _ (by simp)
    obtain ⟨k, e, st, h1, -⟩ := h1
    have hq := (ball_step g _ _ _ h1).1
    have hq0 := ball_above hg hp hle hq h2
    obtain ⟨n, hn⟩ := ih hq0 hs.2
    exact ⟨n, .fall hle hq hq0 hn⟩
  | @jump p b c' l cb h1 h2 h3 h4 h5 _ ih =>
    intro hp hs
    obtain ⟨rfl, a1, a2⟩ := first_ball h5
    obtain ⟨b1, b2, b3⟩ := ball_quiet_reach hg hp h1
    rw [List.map_cons, List.pairwise_cons] at hs
    have hs' := hs.2
    rw [List.map_cons, List.pairwise_cons] at hs'
    obtain ⟨n, hn⟩ := ih b3 hs'.2
    have hc := ball_anyStep h2
    refine ⟨n + 1, .bounce (c'.1 - b.1) b1 b2 b3 (sub_nonneg.2 h3) (by linarith) ?_ ?_ hn⟩
    · rw [← hc]; exact a1
    · rw [← hc]; exact a2

/-- A run of `odeint_hybrid` that returns has reached the last time, if it did not jump at the start and `j_span` is positive. -/
theorem hybrid_last_time {ι : Type} [Fintype ι] {solver : Solver (Except PyErr) ℝ (ι → ℝ) A} (hs : FsalSolver solver args)
    (f : ℝ → (ι → ℝ) → (ι → ℝ)) (x : ι → ℝ) (t0 T : ℝ) (tEval : List ℝ)
    (hT : (t0 :: tEval).getLast? = some T) (jSpan : ℕ) (hj : 1 ≤ jSpan) (cbs : List (EventCallback ℝ (ι → ℝ)))
    (hq : Quiet cbs (t0, x)) (atol rtol eventTol : ℝ)
    (jumpFirst : Bool) (sel : Finset ι) (fuel : ℕ) (ts : List ℝ) (xs : List (ι → ℝ))
    (h : odeintHybrid fuel (pureField f) x (t0 :: tEval) jSpan solver cbs atol rtol eventTol jumpFirst sel args =
      .ok (some (ts, xs))) : ∃ t, ts.getLast? = some t ∧ T ≤ t := by
  obtain ⟨x0, j, dt, _, _, hj0, _, hdt, _, e⟩ := odeintHybrid_loop f x t0 T tEval hT solver cbs atol rtol
    eventTol jumpFirst sel args
  obtain ⟨rfl, -⟩ := hj0 (Or.inr hq)
  rw [e] at h
  cases hl : hybridLoop (hybridCfg f solver args atol rtol sel cbs eventTol) tEval T 0 jSpan fuel
    (hybridInit t0 x0 (f t0 x0) dt) with
  | error err => rw [hl] at h; cases h
  | ok r =>
    cases r with
    | none => rw [hl] at h; cases h
    | some s =>
      rw [hl] at h
      cases h
      obtain ⟨hP, hstop⟩ := hybridLoop_induct (hybridCfg f solver args atol rtol sel cbs eventTol) tEval T 0 jSpan
        (fun s => KOk f s.t s.x s.k1 ∧ s.evalTimes.getLast? = some s.t)
        (fun s s' hP _ hit => by
          obtain ⟨hk, hD⟩ := hP
          obtain ⟨k, x', e', st, h1, h2, hcase⟩ := hybridIter_cases (sel := sel) (atol := atol)
            (rtol := rtol) (eventTol := eventTol) (cbs := cbs) hs tEval T s hk
          rcases hcase with ⟨hq, hr⟩ | ⟨hnq, b, hb, hbis, ⟨-, hr⟩ | ⟨c, cb, hc1, hc2, -, hr⟩⟩
          · rw [hr] at hit
            cases hit
            simp only [hybridFlow]
            by_cases hacc : (hybridCfg f solver args atol rtol sel cbs eventTol).errRatio s.x x' e' ≤ 1
            · rw [if_pos hacc]; exact ⟨Or.inr (by rw [h2]), by simp⟩
            · rw [if_neg hacc]; exact ⟨hk, hD⟩
          · rw [hr] at hit; cases hit
          · rw [hr] at hit
            cases hit
            exact ⟨Or.inl rfl, by simp [afterJump]⟩) fuel _ s
        ⟨Or.inr rfl, by simp [hybridInit]⟩ hl
      refine ⟨s.t, hP.2, ?_⟩
      by_contra hlt
      exact hstop ⟨not_le.1 hlt, hj⟩

/-- **C152.** A ball that starts above the floor, bouncing with restitution `c`, integrated by `odeint_hybrid` with `dopri5` over a span of at most 4096
event tolerances: no exception is raised, and what is returned is a sequence of exact parabolas above the floor, joined by bounces
that happen at most `event_tol` before the ball would reach the floor, up to the last time of the span. All tolerances, grids, `priority` and `j_span`. -/
theorem C152_run (g c : ℝ) (hg : 0 ≤ g) (x : Bool → ℝ) (hx : 0 < x false) (t0 T : ℝ) (tEval : List ℝ)
    (hsort : (t0 :: tEval).Pairwise (· ≤ ·)) (hT : (t0 :: tEval).getLast? = some T) (jSpan : ℕ) (hj : 1 ≤ jSpan)
    (atol rtol tol : ℝ) (htol : T - t0 ≤ 4096 * tol) (jumpFirst : Bool) (sel : Finset Bool) (fuel : ℕ) :
    ∃ r, odeintHybrid fuel (pureField (ballField g)) x (t0 :: tEval) jSpan (dopri5Solver (Except PyErr) ℝ (Bool → ℝ) A)
        [bounceCallback c] atol rtol tol jumpFirst sel args = .ok r ∧
      ∀ ts xs, r = some (ts, xs) → xs.length = ts.length ∧ ts.getLast? = some T ∧
        ∃ n l, ts.zip xs = (t0, x) :: l ∧ BallRun g c tol n (t0, x) l := by
  have hs := dopri5_fsalSolver (ι := Bool) args
  have hpers := ball_persistent (args := args) hg c
  have hqu : Quiet [bounceCallback c] (t0, x) := quiet_ball.2 fun h => absurd h.1 (not_le.2 hx)
  obtain ⟨r, h1, h2⟩ := C80_located_partial hs (ballField g) x t0 T tEval hsort hT jSpan [bounceCallback c] hpers atol rtol tol htol
    jumpFirst sel fuel
  refine ⟨r, h1, fun ts xs hr => ?_⟩
  obtain ⟨h3, x0, l, h4, h5, h6⟩ := h2 ts xs hr
  have hx0 : x0 = x := by
    rcases h4 with ⟨-, h⟩ | ⟨-, cb, hf, -⟩
    · exact h
    · exact absurd (first_ball hf).2.1 (not_le.2 hx)
  subst hx0
  subst hr
  obtain ⟨q1, q2⟩ := C36_times_partial hs (ballField g) x0 t0 T tEval hsort hT jSpan [bounceCallback c] hpers atol rtol tol
    jumpFirst sel fuel ts xs h1
  have hts : ts = ((t0, x0) :: l).map Prod.fst := by
    rw [← h5, List.map_fst_zip (by omega)]
  obtain ⟨t, ht, hTt⟩ := hybrid_last_time hs (ballField g) x0 t0 T tEval hT jSpan hj [bounceCallback c] hqu atol rtol tol jumpFirst sel
    fuel ts xs h1
  obtain ⟨n, hn⟩ := ballRun_of_located hg h6 hx (by rw [← hts]; exact q1)
  refine ⟨h3, ?_, n, l, h5, hn⟩
  rw [ht, le_antisymm (q2 t (List.mem_of_getLast? ht)) hTt]

/-! ### Energy -/

theorem ball_speed {g : ℝ} (hg : 0 ≤ g) {x : Bool → ℝ} (hx : 0 < x false) :
    0 ≤ ballEnergy g x ∧ |x true| ≤ Real.sqrt (2 * ballEnergy g x) := by
  have h : 0 ≤ g * x false := mul_nonneg hg hx.le
  refine ⟨by unfold ballEnergy; positivity, Real.le_sqrt_of_sq_le ?_⟩
  rw [sq_abs]
  unfold ballEnergy
  linarith

/-- The height at a bounce. -/
theorem ball_low {g tol s : ℝ} (hg : 0 ≤ g) {x : Bool → ℝ} (hx : 0 < x false) (hs : 0 ≤ s) (hst : s ≤ tol)
    (h : ballFlow g s x false ≤ 0) : x false ≤ tol * (Real.sqrt (2 * ballEnergy g x) + g * tol / 2) := by
  simp only [ballFlow, Bool.false_eq_true, if_false] at h
  obtain ⟨-, h1⟩ := ball_speed hg hx
  have h2 : -(x true * s) ≤ Real.sqrt (2 * ballEnergy g x) * tol := by
    calc -(x true * s) = -x true * s := by ring
      _ ≤ |x true| * s := mul_le_mul_of_nonneg_right (neg_le_abs _) hs
      _ ≤ Real.sqrt (2 * ballEnergy g x) * tol := mul_le_mul h1 hst hs (Real.sqrt_nonneg _)
  have h3 : g * s ^ 2 ≤ g * tol ^ 2 := mul_le_mul_of_nonneg_left (pow_le_pow_left₀ hs hst 2) hg
  nlinarith

theorem ballEnergy_rebound (g c : ℝ) (x : Bool → ℝ) :
    ballEnergy g (rebound c x) = c ^ 2 * ballEnergy g x + (1 - c ^ 2) * (g * x false) := by
  simp only [ballEnergy, rebound, Bool.false_eq_true, if_false, if_true]
  ring

theorem ball_height_energy {g : ℝ} (x : Bool → ℝ) : g * x false ≤ ballEnergy g x := by
  unfold ballEnergy
  linarith [sq_nonneg (x true)]

theorem ballRun_energy {g c tol : ℝ} (hg : 0 ≤ g) (hc : 0 ≤ c) (hc1 : c ≤ 1) (htol : 0 ≤ tol) {E0 : ℝ} {n : ℕ} {p : Point Bool}
    {l : List (Point Bool)} (h : BallRun g c tol n p l) : 0 < p.2 false → ballEnergy g p.2 ≤ E0 →
      (∀ q ∈ l, 0 < q.2 false ∧ ballEnergy g q.2 ≤ ballEnergy g p.2 ∧ c ^ (2 * n) * ballEnergy g p.2 ≤ ballEnergy g q.2) ∧
      ∀ q, (p :: l).getLast? = some q → c ^ (2 * n) * ballEnergy g p.2 ≤ ballEnergy g q.2 ∧
        ballEnergy g q.2 ≤ c ^ (2 * n) * ballEnergy g p.2 +
          (1 - c ^ (2 * n)) * (g * (tol * (Real.sqrt (2 * E0) + g * tol / 2))) := by
  induction h with
  | nil p =>
    intro _ _
    refine ⟨by simp, fun q hq => ?_⟩
    simp only [List.getLast?_singleton, Option.some.injEq] at hq
    subst hq
    simp
  | @fall n p q l h1 h2 h3 _ ih =>
    intro hp hE
    have he : ballEnergy g q.2 = ballEnergy g p.2 := by rw [h2, ballEnergy_flow]
    have hcn : c ^ (2 * n) ≤ 1 := pow_le_one₀ hc hc1
    obtain ⟨i1, i2⟩ := ih h3 (by rw [he]; exact hE)
    rw [he] at i1 i2
    refine ⟨fun r hr => ?_, fun r hr => i2 r (by rw [List.getLast?_cons_cons] at hr; exact hr)⟩
    rcases List.mem_cons.1 hr with rfl | hr
    · refine ⟨h3, he.le, ?_⟩
      rw [he]
      exact mul_le_of_le_one_left (ball_speed hg hp).1 hcn
    · exact i1 r hr
  | @bounce n p b l s h1 h2 h3 h4 h5 h6 h7 _ ih =>
    intro hp hE
    have he : ballEnergy g b.2 = ballEnergy g p.2 := by rw [h2, ballEnergy_flow]
    have hb0 := (ball_speed hg hp).1
    have hc2 : c ^ 2 ≤ 1 := pow_le_one₀ hc hc1
    have hcn0 : 0 ≤ c ^ (2 * n) := by positivity
    have hcn : c ^ (2 * n) ≤ 1 := pow_le_one₀ hc hc1
    have hr : ballEnergy g (rebound c b.2) = c ^ 2 * ballEnergy g p.2 + (1 - c ^ 2) * (g * b.2 false) := by
      rw [ballEnergy_rebound, he]
    have hgb : 0 ≤ g * b.2 false := mul_nonneg hg h3.le
    have hlow : c ^ 2 * ballEnergy g p.2 ≤ ballEnergy g (rebound c b.2) := by
      rw [hr]; exact le_add_of_nonneg_right (mul_nonneg (by linarith) hgb)
    have hup : ballEnergy g (rebound c b.2) ≤ ballEnergy g p.2 := by
      have := ball_height_energy (g := g) b.2
      rw [he] at this
      rw [hr]
      nlinarith
    obtain ⟨i1, i2⟩ := ih h3 (hup.trans hE)
    have hpow : c ^ (2 * (n + 1)) = c ^ (2 * n) * c ^ 2 := by ring
    have hle : c ^ (2 * (n + 1)) * ballEnergy g p.2 ≤ c ^ (2 * n) * ballEnergy g (rebound c b.2) := by
      rw [hpow, mul_assoc]
      exact mul_le_mul_of_nonneg_left hlow hcn0
    have hbp : c ^ (2 * (n + 1)) * ballEnergy g p.2 ≤ ballEnergy g p.2 :=
      mul_le_of_le_one_left hb0 (pow_le_one₀ hc hc1)
    refine ⟨fun r hr' => ?_, fun r hr' => ?_⟩
    · rcases List.mem_cons.1 hr' with rfl | hr'
      · exact ⟨h3, he.le, by rw [he]; exact hbp⟩
      · rcases List.mem_cons.1 hr' with rfl | hr'
        · refine ⟨h3, hup, hle.trans ?_⟩
          exact mul_le_of_le_one_left (hb0.trans' (by rfl) |> fun _ => (mul_nonneg (sq_nonneg c) hb0).trans hlow) hcn
        · obtain ⟨j1, j2, j3⟩ := i1 r hr'
          exact ⟨j1, j2.trans hup, hle.trans j3⟩
    · rw [List.getLast?_cons_cons, List.getLast?_cons_cons] at hr'
      obtain ⟨j1, j2⟩ := i2 r hr'
      refine ⟨hle.trans j1, j2.trans ?_⟩
      have hK : g * b.2 false ≤ g * (tol * (Real.sqrt (2 * E0) + g * tol / 2)) := by
        refine mul_le_mul_of_nonneg_left ((ball_low hg h3 h4 h5 h6).trans ?_) hg
        refine mul_le_mul_of_nonneg_left ?_ htol
        have : Real.sqrt (2 * ballEnergy g b.2) ≤ Real.sqrt (2 * E0) := Real.sqrt_le_sqrt (by rw [he]; linarith)
        linarith
      simp only [hr]
      rw [hpow]
      have := mul_le_mul_of_nonneg_left hK (mul_nonneg hcn0 (show 0 ≤ 1 - c ^ 2 by linarith))
      nlinarith

/-- **C152.** The energy of the ball in such a run: the ball stays above the floor, its energy never grows, and after `n` bounces it is
`c²ⁿ` times the initial energy up to an error of the order of `event_tol` that does not grow with the number of bounces. With
`c = 1` the energy is constant. -/
theorem C152_energy {g c tol : ℝ} (hg : 0 ≤ g) (hc : 0 ≤ c) (hc1 : c ≤ 1) (htol : 0 ≤ tol) {n : ℕ} {p : Point Bool}
    {l : List (Point Bool)} (h : BallRun g c tol n p l) (hp : 0 < p.2 false) :
    (∀ q ∈ l, 0 < q.2 false ∧ ballEnergy g q.2 ≤ ballEnergy g p.2) ∧
      (∀ q, (p :: l).getLast? = some q → c ^ (2 * n) * ballEnergy g p.2 ≤ ballEnergy g q.2 ∧
        ballEnergy g q.2 ≤ c ^ (2 * n) * ballEnergy g p.2 + g * tol * (Real.sqrt (2 * ballEnergy g p.2) + g * tol / 2)) ∧
      (c = 1 → ∀ q ∈ l, ballEnergy g q.2 = ballEnergy g p.2) := by
  obtain ⟨h1, h2⟩ := ballRun_energy hg hc hc1 htol h hp le_rfl
  refine ⟨fun q hq => ⟨(h1 q hq).1, (h1 q hq).2.1⟩, fun q hq => ⟨(h2 q hq).1, (h2 q hq).2.trans ?_⟩, ?_⟩
  · have h3 : 0 ≤ c ^ (2 * n) := by positivity
    have h4 : 0 ≤ g * tol * (Real.sqrt (2 * ballEnergy g p.2) + g * tol / 2) := by positivity
    nlinarith
  · rintro rfl q hq
    obtain ⟨-, a, b⟩ := h1 q hq
    rw [one_pow, one_mul] at b
    exact le_antisymm a b

/-! ### The call returns -/

/-- The speed at a bounce: at the floor it would be at least `√(2E)`. -/
theorem ball_fast {g s tol : ℝ} (hg : 0 ≤ g) {x : Bool → ℝ} (hst : s ≤ tol)
    (h1 : ballFlow g s x false ≤ 0) (h2 : ballFlow g s x true ≤ 0) :
    Real.sqrt (2 * ballEnergy g x) - g * tol ≤ -x true := by
  simp only [ballFlow, Bool.false_eq_true, if_false, if_true] at h1 h2
  have h3 : Real.sqrt (2 * ballEnergy g x) ≤ g * s - x true := by
    rw [Real.sqrt_le_left (by linarith)]
    unfold ballEnergy
    have := mul_nonneg hg (neg_nonneg.2 h1)
    nlinarith
  have h4 := mul_le_mul_of_nonneg_left hst hg
  linarith

theorem ball_hybrid_ends {g c : ℝ} (hg : 0 < g) {t0 T : ℝ} {tEval : List ℝ}
    (hsort : tEval.Pairwise (· ≤ ·)) {atol rtol tol : ℝ} (ha : 0 < atol) (hr : 0 ≤ rtol) (htol : T - t0 ≤ 4096 * tol)
    {sel : Finset Bool} {j jSpan : ℕ} (xl : Bool → ℝ) (last : ℝ)
    (hnext : ∀ (s : HState ℝ (Bool → ℝ)) (b : Point Bool) (τ : ℝ), HGood (ballField g) tEval t0 T s → s.x = rebound c b.2 →
      s.t = b.1 → last ≤ b.1 → b.2 = ballFlow g (b.1 - last) xl → 0 < b.2 false → 0 ≤ τ → τ ≤ tol → ballFlow g τ b.2 false ≤ 0 →
      ballFlow g τ b.2 true ≤ 0 →
      LoopEnds (hybridCfg (ballField g) (dopri5Solver (Except PyErr) ℝ (Bool → ℝ) A) args atol rtol sel [bounceCallback c] tol)
        tEval T j jSpan s)
    (s : HState ℝ (Bool → ℝ)) (hs : HGood (ballField g) tEval t0 T s) (hle : last ≤ s.t)
    (hsx : s.x = ballFlow g (s.t - last) xl) (hs0 : 0 < s.x false) :
    LoopEnds (hybridCfg (ballField g) (dopri5Solver (Except PyErr) ℝ (Bool → ℝ) A) args atol rtol sel [bounceCallback c] tol)
      tEval T j jSpan s := by
  have hfs := dopri5_fsalSolver (ι := Bool) args
  have hpers := ball_persistent (args := args) hg.le c
  refine flow_phase_small (δ := 1) hfs (by norm_num [dopri5Solver]) rfl rfl rfl hsort one_pos ?_
    (fun s => LoopEnds (hybridCfg (ballField g) (dopri5Solver (Except PyErr) ℝ (Bool → ℝ) A) args atol rtol sel
      [bounceCallback c] tol) tEval T j jSpan s)
    (fun q => last ≤ q.1 ∧ q.2 = ballFlow g (q.1 - last) xl ∧ 0 < q.2 false) ?_
    (fun s h => loopEnds_stop fun h' => h h'.1) (fun s _ h => loopEnds_error h)
    (fun s k x' e _ _ _ _ hit hn => loopEnds_next hit hn) ?_ s hs ⟨hle, hsx, hs0⟩
  · intro x t dt k x' e st _ _ h
    obtain ⟨-, rfl⟩ := ball_step g x t dt h
    refine lt_of_le_of_lt (errorNorm_le sel atol rtol ha hr x x' _ 0 le_rfl (by simp)) (by simp)
  · rintro p q ⟨p1, p2, p3⟩ hpq hst hq
    have hq2 := ball_anyStep hst
    refine ⟨p1.trans hpq, ?_, ball_above hg.le p3 hpq hq2 hq⟩
    rw [hq2, p2, ballFlow_add]
    congr 1
    ring
  · rintro s x' b c' cb hgs ⟨r1, r2, r3⟩ hlt hst hnq hbis _ _ hfa hev hit
    obtain ⟨l1, d, l2, l3, l4, l5, l6⟩ := jump_located (eventTol := tol) (atol := atol) (rtol := rtol) (sel := sel) hfs hsort
      hpers htol s x' b c' cb hgs hst hnq hbis hfa hev
    obtain ⟨rfl, a1, a2⟩ := first_ball l6
    obtain ⟨b1, b2, b3⟩ := ball_quiet_reach hg.le r3 l1
    have hd := ball_anyStep l2
    refine loopEnds_next hit (hnext _ (b.tInner, b.xInner) (d.1 - b.tInner)
      (hgood_jump hfs hsort hgs hlt hpers hst hnq hbis _) rfl rfl (r1.trans b1) ?_ b3 (sub_nonneg.2 l4) (by linarith) ?_ ?_)
    · simp only at b2 r2 ⊢
      rw [b2, r2, ballFlow_add]
      congr 1
      ring
    · rw [← hd]; exact a1
    · rw [← hd]; exact a2

/-- **C152.** The call returns if the span is at most the duration of `N` flights between bounces, each shortened by three event
tolerances: the flight after bounce `k` of the ball with speed `u = √(2 E)` at the floor lasts `2 cᵏ u / g`. For `c = 1` there is such an `N` whenever
`2 u / g > 3 event_tol`. -/
theorem C152_returns (g c : ℝ) (hg : 0 < g) (hc : 0 ≤ c) (hc1 : c ≤ 1) (x : Bool → ℝ) (hx : 0 < x false) (t0 T : ℝ)
    (tEval : List ℝ) (hsort : (t0 :: tEval).Pairwise (· ≤ ·)) (hT : (t0 :: tEval).getLast? = some T) (jSpan : ℕ)
    (atol rtol tol : ℝ) (ha : 0 < atol) (hr : 0 ≤ rtol) (htol : T - t0 ≤ 4096 * tol) (N : ℕ)
    (hN : T - t0 ≤ ∑ k ∈ Finset.range N, (2 * c ^ (k + 1) * Real.sqrt (2 * ballEnergy g x) / g - 3 * tol))
    (jumpFirst : Bool) (sel : Finset Bool) :
    ∃ fuel ts xs, odeintHybrid fuel (pureField (ballField g)) x (t0 :: tEval) jSpan
      (dopri5Solver (Except PyErr) ℝ (Bool → ℝ) A) [bounceCallback c] atol rtol tol jumpFirst sel args =
        .ok (some (ts, xs)) := by
  have hs := dopri5_fsalSolver (ι := Bool) args
  have hqu : Quiet [bounceCallback c] (t0, x) := quiet_ball.2 fun h => absurd h.1 (not_le.2 hx)
  obtain ⟨x0, j, dt, _, _, hj0, _, hdt, _, e⟩ := odeintHybrid_loop (ballField g) x t0 T tEval hT
    (dopri5Solver (Except PyErr) ℝ (Bool → ℝ) A) [bounceCallback c] atol rtol tol jumpFirst sel args
  obtain ⟨-, rfl⟩ := hj0 (Or.inr hqu)
  have hsort' := (List.pairwise_cons.1 hsort).2
  -- the state after a bounce at `b`
  have hafter : ∀ (u : ℝ) (xl : Bool → ℝ) (b : Point Bool) (last τ : ℝ), u ≤ Real.sqrt (2 * ballEnergy g xl) →
      b.2 = ballFlow g (b.1 - last) xl → 0 < b.2 false → 0 ≤ τ → τ ≤ tol → ballFlow g τ b.2 false ≤ 0 →
      ballFlow g τ b.2 true ≤ 0 → c * u - g * tol ≤ rebound c b.2 true ∧
        c * u ≤ Real.sqrt (2 * ballEnergy g (rebound c b.2)) := by
    intro u xl b last τ hu hb hb0 h0 h1 h2 h3
    have he : ballEnergy g b.2 = ballEnergy g xl := by rw [hb, ballEnergy_flow]
    have hf := ball_fast hg.le h1 h2 h3
    rw [he] at hf
    have hgt : 0 ≤ g * tol := mul_nonneg hg.le (h0.trans h1)
    constructor
    · simp only [rebound, if_true]
      have : c * (u - g * tol) ≤ c * (-b.2 true) := mul_le_mul_of_nonneg_left (by linarith) hc
      nlinarith
    · refine (mul_le_mul_of_nonneg_left hu hc).trans (Real.le_sqrt_of_sq_le ?_)
      have hE : 0 ≤ ballEnergy g xl := he ▸ (ball_speed hg.le hb0).1
      rw [mul_pow, Real.sq_sqrt (by linarith), ballEnergy_rebound, he]
      have : 0 ≤ (1 - c ^ 2) * (g * b.2 false) :=
        mul_nonneg (by have := pow_le_one₀ hc hc1 (n := 2); linarith) (mul_nonneg hg.le hb0.le)
      linarith
  have key : ∀ (n : ℕ) (u : ℝ) (xl : Bool → ℝ) (last : ℝ) (s : HState ℝ (Bool → ℝ)), HGood (ballField g) tEval t0 T s →
      s.t = last → s.x = xl → 0 < xl false → c * u - g * tol ≤ xl true → c * u ≤ Real.sqrt (2 * ballEnergy g xl) →
      T - last ≤ ∑ k ∈ Finset.range n, (2 * c ^ (k + 1) * u / g - 3 * tol) →
      LoopEnds (hybridCfg (ballField g) (dopri5Solver (Except PyErr) ℝ (Bool → ℝ) A) args atol rtol sel [bounceCallback c] tol)
        tEval T j jSpan s := by
    intro n
    induction n with
    | zero =>
      intro u xl last s _ hl _ _ _ _ hn
      simp only [Finset.range_zero, Finset.sum_empty] at hn
      exact loopEnds_stop fun h => by have := h.1; linarith
    | succ n ih =>
      intro u xl last s hgs hl hxs hxl hv hu hn
      refine ball_hybrid_ends hg hsort' ha hr htol xl last ?_ s hgs hl.ge
        (by rw [hl, sub_self, ballFlow_zero, hxs]) (by rw [hxs]; exact hxl)
      intro s' b τ hgs' hx' ht' hlb hb hb0 h0 h1 h2 h3
      obtain ⟨q1, q2⟩ := hafter (c * u) xl b last τ hu hb hb0 h0 h1 h2 h3
      refine ih (c * u) (rebound c b.2) b.1 s' hgs' ht' hx' hb0 q1 q2 ?_
      have hflight : 2 * (c * u - g * tol) ≤ g * (b.1 - last + τ) := by
        rw [hb, ballFlow_add] at h2
        have hd0 : 0 ≤ b.1 - last + τ := by linarith
        generalize b.1 - last + τ = d at h2 hd0
        simp only [ballFlow, Bool.false_eq_true, if_false] at h2
        by_contra hcon
        have : 0 ≤ d * (2 * xl true - g * d) := mul_nonneg hd0 (by linarith)
        nlinarith
      rw [Finset.sum_range_succ'] at hn
      have hsum : ∀ k, 2 * c ^ (k + 1 + 1) * u / g - 3 * tol = 2 * c ^ (k + 1) * (c * u) / g - 3 * tol := by
        intro k; ring
      simp only [hsum] at hn
      have hfl : 2 * c ^ (0 + 1) * u / g - 3 * tol ≤ b.1 - last := by
        have h4 : 2 * c ^ (0 + 1) * u / g ≤ b.1 - last + 3 * tol := by
          rw [div_le_iff₀ hg]
          have : g * τ ≤ g * tol := mul_le_mul_of_nonneg_left h1 hg.le
          rw [zero_add, pow_one]
          linarith
        linarith
      linarith
  have hends : LoopEnds (hybridCfg (ballField g) (dopri5Solver (Except PyErr) ℝ (Bool → ℝ) A) args atol rtol sel
      [bounceCallback c] tol) tEval T j jSpan (hybridInit t0 x0 (ballField g t0 x0) dt) := by
    refine ball_hybrid_ends hg hsort' ha hr htol x0 t0 ?_ _ (hgood_init hdt hsort hT) le_rfl
      (by simp [hybridInit, ballFlow_zero]) hx
    intro s' b τ hgs' hx' ht' hlb hb hb0 h0 h1 h2 h3
    obtain ⟨q1, q2⟩ := hafter _ x0 b t0 τ le_rfl hb hb0 h0 h1 h2 h3
    exact key N _ (rebound c b.2) b.1 s' hgs' ht' hx' hb0 q1 q2 (by linarith)
  obtain ⟨fuel, hf⟩ := loopEnds_map hends
  obtain ⟨r, hr', -⟩ := C80_located_partial hs (ballField g) x0 t0 T tEval hsort hT jSpan [bounceCallback c]
    (ball_persistent hg.le c) atol rtol tol htol jumpFirst sel fuel
  rw [← e, hr'] at hf
  cases r with
  | none => exact absurd rfl hf
  | some r => exact ⟨fuel, r.1, r.2, hr'⟩

/-- The hypotheses are met, and there are bounces: a ball dropped from height 1 with `g = 2` and `c = 1/2`, on `[0, 3/2]` with `event_tol = 1/1000`,
reaches the floor at time 1. -/
theorem ball_dropped : ∃ fuel ts xs, odeintHybrid fuel (pureField (ballField 2)) (fun i => if i then 0 else 1) [0, 1 / 2, 3 / 2] 1
      (dopri5Solver (Except PyErr) ℝ (Bool → ℝ) Unit) [bounceCallback (1 / 2)] (1 / 10 ^ 6) (1 / 10 ^ 3) (1 / 10 ^ 3) false
      Finset.univ () = .ok (some (ts, xs)) ∧
    ∃ n l, ts.zip xs = (0, fun i => if i then 0 else 1) :: l ∧ 1 ≤ n ∧
      BallRun 2 (1 / 2) (1 / 10 ^ 3) n (0, fun i => if i then 0 else 1) l := by
  have hsq : Real.sqrt (2 * ballEnergy 2 (fun i => if i then 0 else 1)) = 2 := by
    rw [show 2 * ballEnergy 2 (fun i => if i then 0 else 1) = 2 ^ 2 by norm_num [ballEnergy], Real.sqrt_sq (by norm_num)]
  obtain ⟨fuel, ts, xs, h⟩ := C152_returns (args := ()) 2 (1 / 2) (by norm_num) (by norm_num) (by norm_num)
    (fun i => if i then 0 else 1) (by norm_num) 0 (3 / 2) [1 / 2, 3 / 2] (by norm_num) rfl 1 (1 / 10 ^ 6) (1 / 10 ^ 3) (1 / 10 ^ 3)
    (by norm_num) (by norm_num) (by norm_num) 3 (by rw [hsq]; norm_num [Finset.sum_range_succ]) false Finset.univ
  obtain ⟨r, h1, h2⟩ := C152_run (args := ()) 2 (1 / 2) (by norm_num) (fun i => if i then 0 else 1) (by norm_num) 0 (3 / 2)
    [1 / 2, 3 / 2] (by norm_num) rfl 1 le_rfl (1 / 10 ^ 6) (1 / 10 ^ 3) (1 / 10 ^ 3) (by norm_num) false Finset.univ fuel
  obtain rfl : r = some (ts, xs) := by
    have := h1.symm.trans h
    cases this
    rfl
  obtain ⟨h3, h4, n, l, h5, h6⟩ := h2 ts xs rfl
  refine ⟨fuel, ts, xs, h, n, l, h5, ?_, h6⟩
  by_contra hn
  obtain rfl : n = 0 := by omega
  -- without bounces the ball would be below the floor at the end
  have hfree : ∀ (n : ℕ) (p : Point Bool) (l : List (Point Bool)), BallRun 2 (1 / 2) (1 / 10 ^ 3) n p l → n = 0 → 0 < p.2 false →
      p.2 = ballFlow 2 p.1 (fun i => if i then 0 else 1) → ∀ q ∈ p :: l, 0 < q.2 false ∧
        q.2 = ballFlow 2 q.1 (fun i => if i then 0 else 1) := by
    intro n p l hrun
    induction hrun with
    | nil p => rintro - h0 h1 q hq; rw [List.mem_singleton] at hq; subst hq; exact ⟨h0, h1⟩
    | @fall n p q l a1 a2 a3 _ ih =>
      rintro hn h0 h1 r hr
      rcases List.mem_cons.1 hr with rfl | hr
      · exact ⟨h0, h1⟩
      · refine ih hn a3 ?_ r hr
        rw [a2, h1, ballFlow_add]
        congr 1
        ring
    | bounce => intro hn; omega
  have hts : ts = ((0, fun i => if i then 0 else 1) :: l : List (Point Bool)).map Prod.fst := by
    rw [← h5, List.map_fst_zip (by omega)]
  have hmem := List.mem_of_getLast? h4
  rw [hts, List.mem_map] at hmem
  obtain ⟨q, hq, hq2⟩ := hmem
  obtain ⟨q3, q4⟩ := hfree 0 _ l h6 rfl (by norm_num) (by simp [ballFlow_zero]) q hq
  rw [q4, hq2] at q3
  norm_num [ballFlow] at q3

/-- An elastic ball: the hypothesis of `C152_returns` is met by some `N` whatever the span. -/
example (g : ℝ) (x : Bool → ℝ) (S tol : ℝ) (h : 3 * tol < 2 * Real.sqrt (2 * ballEnergy g x) / g) :
    ∃ N : ℕ, S ≤ ∑ k ∈ Finset.range N, (2 * (1 : ℝ) ^ (k + 1) * Real.sqrt (2 * ballEnergy g x) / g - 3 * tol) := by
  obtain ⟨N, hN⟩ := exists_nat_ge (S / (2 * Real.sqrt (2 * ballEnergy g x) / g - 3 * tol))
  rw [div_le_iff₀ (by linarith)] at hN
  exact ⟨N, by simp only [one_pow, mul_one, Finset.sum_const, Finset.card_range, nsmul_eq_mul]; exact hN⟩

end Torchdyn
