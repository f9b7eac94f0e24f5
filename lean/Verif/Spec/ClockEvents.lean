import Verif.Spec.Hybrid

/-!
Specification vocabulary for events triggered by a clock: an entry `j` of the state that grows at the rate `r`, compared with
thresholds `ω 0, ω 1, …`; each time the next threshold is reached the state jumps and the clock restarts from zero.
-/

namespace Spec

open Torchdyn

variable {ι A : Type}

/-- `ClockRun … l p J last`: `l` are the outputs recorded so far, the last one being `p`; `J` are the times of the jumps so far, the
last one (or the initial time) being `last`. A recorded point is
* the end of a solver step within the tolerances, at which the clock shows `r` times the time since `last`, which is below the
  threshold, or
* a pair `b, (b.1, g b.1 b.2)` recording a jump: `b` is reached by solver steps, the clock shows `r` times the time since `last`,
  which is below the threshold; the threshold is reached at most `tol` later, and not after `T`. -/
inductive ClockRun (solver : Solver (Except PyErr) ℝ (ι → ℝ) A) (args : A) (f : ℝ → (ι → ℝ) → (ι → ℝ)) (sel : Finset ι)
    (atol rtol tol : ℝ) (j : ι) (g : ℝ → (ι → ℝ) → (ι → ℝ)) (r : ℝ) (ω : ℕ → ℝ) (t0 T : ℝ) (x0 : ι → ℝ) :
    List (Point ι) → Point ι → List ℝ → ℝ → Prop
  | start : ClockRun solver args f sel atol rtol tol j g r ω t0 T x0 [(t0, x0)] (t0, x0) [] t0
  | flow {l p q J last} : ClockRun solver args f sel atol rtol tol j g r ω t0 T x0 l p J last →
      p.1 ≤ q.1 → FlowStep solver args f sel atol rtol p q →
      q.2 j = r * (q.1 - last) → q.2 j < ω J.length →
      ClockRun solver args f sel atol rtol tol j g r ω t0 T x0 (l ++ [q]) q J last
  | jump {l p b J last} : ClockRun solver args f sel atol rtol tol j g r ω t0 T x0 l p J last →
      Relation.ReflTransGen (fun p q => p.1 ≤ q.1 ∧ AnyStep solver args f p q) p b →
      b.2 j = r * (b.1 - last) → b.2 j < ω J.length →
      ω J.length ≤ r * (b.1 + tol - last) → ω J.length ≤ r * (T - last) →
      ClockRun solver args f sel atol rtol tol j g r ω t0 T x0 (l ++ [b, (b.1, g b.1 b.2)]) (b.1, g b.1 b.2)
        (J ++ [b.1]) b.1

/-- The times `J` of the jumps follow the thresholds: jump number `k` happens before the clock, restarted at the previous
jump (or at `t0`), shows `ω k`, and at most `tol` earlier. -/
def HoldingTimes (r tol t0 : ℝ) (ω : ℕ → ℝ) (J : List ℝ) : Prop :=
  ∀ (k : ℕ) (prev τ : ℝ), (t0 :: J)[k]? = some prev → J[k]? = some τ →
    prev ≤ τ ∧ r * (τ - prev) < ω k ∧ ω k ≤ r * (τ + tol - prev)

end Spec
