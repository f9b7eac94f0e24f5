import Verif.Props.FixedStep

/-!
Property C07, continued: a supplied first stage saves one evaluation.
-/

namespace Torchdyn

variable {K V A : Type} [Field K] [AddCommGroup V] [Module K V]

/-- The step, run with a counting field from any value of the counter, adds `s` to it when it computes its first stage and
`s - 1` when the stage is supplied; the results are those of the uncounted step. -/
def SavesOne (s : Nat) (step : ∀ {m : Type → Type} [Monad m], (K → V → m V) → V → K → K → Option V → A → m (StepOut V)) :
    Prop :=
  ∀ (f : K → V → V) (x : V) (t dt : K) (k : V) (args : A) (c : Nat),
    (step (countedField f) x t dt none args).run c = .ok (step (m := Id) (pureField f) x t dt none args, c + s) ∧
    (step (countedField f) x t dt (some k) args).run c =
      .ok (step (m := Id) (pureField f) x t dt (some k) args, c + (s - 1))

/-- **C07.** A supplied first stage is used: every explicit step then calls the field once less, and takes exactly the
documented number of evaluations otherwise. -/
theorem C07_k1_cost :
    SavesOne (K := K) (V := V) (A := A) 1 eulerStep ∧ SavesOne (K := K) (V := V) (A := A) 2 midpointStep ∧
    SavesOne (K := K) (V := V) (A := A) 4 (rk4Step (constructRk4 K)) ∧
    SavesOne (K := K) (V := V) (A := A) 7 dopri5Step ∧ SavesOne (K := K) (V := V) (A := A) 7 tsit5Step :=
  ⟨fun _ _ _ _ _ _ _ => ⟨rfl, rfl⟩, fun _ _ _ _ _ _ _ => ⟨rfl, rfl⟩, fun _ _ _ _ _ _ _ => ⟨rfl, rfl⟩,
    fun _ _ _ _ _ _ _ => ⟨rfl, rfl⟩, fun _ _ _ _ _ _ _ => ⟨rfl, rfl⟩⟩

/-- **C07.** The value a supplied first stage `k` leads to, for `euler`, `midpoint` and the classical tableau. -/
theorem C07_k1_used (f : K → V → V) (x k : V) (t h : K) (args : A) :
    (eulerStep (m := Id) (pureField f) x t h (some k) args).newState = x + h • k ∧
    (midpointStep (m := Id) (pureField f) x t h (some k) args).newState =
      x + h • f (t + h / 2) (x + (h / 2) • k) := by
  refine ⟨rfl, ?_⟩
  have e1 : (1 / 2 : K) * h = h / 2 := by ring
  change x + h • f (t + 1 / 2 * h) (x + (1 / 2 * h) • k) = _
  rw [e1]

/-- Non-vacuity: a wrong first stage changes the midpoint step. -/
example : (midpointStep (m := Id) (pureField (fun (_ : ℚ) (y : ℚ) => y)) 1 0 1 (some 5) ()).newState ≠
    (midpointStep (m := Id) (pureField (fun (_ : ℚ) (y : ℚ) => y)) 1 0 1 none ()).newState := by
  rw [(C07_k1_used _ _ _ _ _ _).2]
  change _ ≠ (1 : ℚ) + (1 : ℚ) • (1 + (1 / 2 * 1 : ℚ) • (1 : ℚ))
  norm_num

end Torchdyn
