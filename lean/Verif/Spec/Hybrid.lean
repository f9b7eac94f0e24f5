import Verif.Spec.Adaptive
import Verif.Model.Hybrid

/-!
Specification vocabulary for integration with events. It mentions the interfaces a user implements
(`Solver.step`, `EventCallback`) but none of the helpers of the integration loop.
-/

namespace Spec

open Torchdyn

variable {ι A : Type}

/-- `q` is the end point of a step of `solver` from `p`, of size `q.1 - p.1` (of any sign), within the
tolerances. -/
def FlowStep (solver : Solver (Except PyErr) ℝ (ι → ℝ) A) (args : A)
    (f : ℝ → (ι → ℝ) → (ι → ℝ)) (sel : Finset ι) (atol rtol : ℝ) (p q : Point ι) : Prop :=
  ∃ k e st,
    solver.step (fun t x => .ok (f t x)) p.2 p.1 (q.1 - p.1) none args = .ok (.four k q.2 e st) ∧
    errorNorm sel atol rtol p.2 q.2 e ≤ 1

/-- `q` is the end point of a step of `solver` from `p`, whatever its error estimate. -/
def AnyStep (solver : Solver (Except PyErr) ℝ (ι → ℝ) A) (args : A)
    (f : ℝ → (ι → ℝ) → (ι → ℝ)) (p q : Point ι) : Prop :=
  ∃ k e st,
    solver.step (fun t x => .ok (f t x)) p.2 p.1 (q.1 - p.1) none args = .ok (.four k q.2 e st)

/-- No callback is active at `p`. -/
def Quiet (callbacks : List (EventCallback ℝ (ι → ℝ))) (p : Point ι) : Prop :=
  ∀ cb ∈ callbacks, cb.checkEvent p.1 p.2 = false

/-- `cb` is the callback with the smallest index among those active at `p`. -/
def FirstActive (callbacks : List (EventCallback ℝ (ι → ℝ))) (p : Point ι)
    (cb : EventCallback ℝ (ι → ℝ)) : Prop :=
  ∃ i : ℕ, callbacks[i]? = some cb ∧ cb.checkEvent p.1 p.2 = true ∧
    ∀ (j : ℕ) (cb' : EventCallback ℝ (ι → ℝ)), j < i → callbacks[j]? = some cb' →
      cb'.checkEvent p.1 p.2 = false

/-- The outputs recorded after the point `p`:
* a step within the tolerances at whose end no callback is active, or
* a pair `b, (b.1, jump b)` recording a jump: `b` is reached from `p` by solver steps at whose ends no
  callback is active, and a further solver step from `b` ends at a point where the callback that jumps
  is the first active one. -/
inductive HybridTrace (solver : Solver (Except PyErr) ℝ (ι → ℝ) A) (args : A)
    (f : ℝ → (ι → ℝ) → (ι → ℝ)) (sel : Finset ι) (atol rtol : ℝ)
    (callbacks : List (EventCallback ℝ (ι → ℝ))) : Point ι → List (Point ι) → Prop
  | nil (p) : HybridTrace solver args f sel atol rtol callbacks p []
  | flow {p q l} : FlowStep solver args f sel atol rtol p q → Quiet callbacks q →
      HybridTrace solver args f sel atol rtol callbacks q l →
      HybridTrace solver args f sel atol rtol callbacks p (q :: l)
  | jump {p b c l} (cb : EventCallback ℝ (ι → ℝ)) :
      Relation.ReflTransGen (fun p q => AnyStep solver args f p q ∧ Quiet callbacks q) p b →
      AnyStep solver args f b c → FirstActive callbacks c cb →
      HybridTrace solver args f sel atol rtol callbacks (b.1, cb.jumpMap b.1 b.2) l →
      HybridTrace solver args f sel atol rtol callbacks p (b :: (b.1, cb.jumpMap b.1 b.2) :: l)

/-- The outputs recorded after the point `p`, as in `HybridTrace`, with events located to within `tol`: a jump happens at
`b` only if no callback is active at the end of any solver step leading from `p` to `b`, and a callback is active at the end of
a solver step from `b` of size at most `tol`. -/
inductive LocatedTrace (solver : Solver (Except PyErr) ℝ (ι → ℝ) A) (args : A)
    (f : ℝ → (ι → ℝ) → (ι → ℝ)) (sel : Finset ι) (atol rtol tol : ℝ)
    (callbacks : List (EventCallback ℝ (ι → ℝ))) : Point ι → List (Point ι) → Prop
  | nil (p) : LocatedTrace solver args f sel atol rtol tol callbacks p []
  | flow {p q l} : FlowStep solver args f sel atol rtol p q → Quiet callbacks q →
      LocatedTrace solver args f sel atol rtol tol callbacks q l →
      LocatedTrace solver args f sel atol rtol tol callbacks p (q :: l)
  | jump {p b c l} (cb : EventCallback ℝ (ι → ℝ)) :
      Relation.ReflTransGen (fun p q => p.1 ≤ q.1 ∧ AnyStep solver args f p q ∧ Quiet callbacks q) p b →
      AnyStep solver args f b c → b.1 ≤ c.1 → c.1 ≤ b.1 + tol → FirstActive callbacks c cb →
      LocatedTrace solver args f sel atol rtol tol callbacks (b.1, cb.jumpMap b.1 b.2) l →
      LocatedTrace solver args f sel atol rtol tol callbacks p (b :: (b.1, cb.jumpMap b.1 b.2) :: l)

/-- No callback is ever active. -/
def NeverFires (callbacks : List (EventCallback ℝ (ι → ℝ))) : Prop := ∀ p, Quiet callbacks p

/-- Along the uninterrupted flow, an event stays on once it is on: if `q` and `r` are reached from the
same point by solver steps forward in time, `r` not earlier than `q`, and some callback is active at
`q`, then some callback is active at `r`. -/
def Persistent (solver : Solver (Except PyErr) ℝ (ι → ℝ) A) (args : A)
    (f : ℝ → (ι → ℝ) → (ι → ℝ)) (callbacks : List (EventCallback ℝ (ι → ℝ))) : Prop :=
  ∀ p q r, Relation.ReflTransGen (fun p q => p.1 ≤ q.1 ∧ AnyStep solver args f p q) p q →
    Relation.ReflTransGen (fun p q => p.1 ≤ q.1 ∧ AnyStep solver args f p q) p r →
    q.1 ≤ r.1 → ¬ Quiet callbacks q → ¬ Quiet callbacks r

/-- After a jump nothing is active for a time `τ`: if a solver step of size at most `tol` from `b` ends where `cb` is the first
active callback, then no callback is active at any point reached, by solver steps forward in time from the state after the jump
of `cb` at `b`, before the time `b.1 + τ`. -/
def DwellTime (solver : Solver (Except PyErr) ℝ (ι → ℝ) A) (args : A)
    (f : ℝ → (ι → ℝ) → (ι → ℝ)) (callbacks : List (EventCallback ℝ (ι → ℝ))) (tol τ : ℝ) : Prop :=
  ∀ (b c : Point ι) (cb : EventCallback ℝ (ι → ℝ)) (q : Point ι), AnyStep solver args f b c → b.1 ≤ c.1 →
    c.1 ≤ b.1 + tol → FirstActive callbacks c cb →
    Relation.ReflTransGen (fun p q => p.1 ≤ q.1 ∧ AnyStep solver args f p q) (b.1, cb.jumpMap b.1 b.2) q →
    q.1 < b.1 + τ → Quiet callbacks q

/-- The outputs recorded after the point `p`: points at which no callback is active, and pairs recording a jump. A jump of `cb`
happens at `b` only if `cb` is the first active callback at some point `c` within `tol` in time and `ρ` in every component;
no callback is active at `b` itself, unless nothing was integrated since `p`. -/
inductive NearTrace (tol ρ : ℝ) (callbacks : List (EventCallback ℝ (ι → ℝ))) : Point ι → List (Point ι) → Prop
  | nil (p) : NearTrace tol ρ callbacks p []
  | flow {p q l} : Quiet callbacks q → NearTrace tol ρ callbacks q l → NearTrace tol ρ callbacks p (q :: l)
  | jump {p b c l} (cb : EventCallback ℝ (ι → ℝ)) : (b = p ∨ Quiet callbacks b) → FirstActive callbacks c cb →
      |c.1 - b.1| ≤ tol → (∀ i, |c.2 i - b.2 i| ≤ ρ) →
      NearTrace tol ρ callbacks (b.1, cb.jumpMap b.1 b.2) l →
      NearTrace tol ρ callbacks p (b :: (b.1, cb.jumpMap b.1 b.2) :: l)

end Spec
