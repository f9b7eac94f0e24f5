import Verif.Model.Sde
import Verif.Proofs.FixedOdeint

/-!
Helper lemmas for `sdeint`.
-/

set_option linter.unusedSectionVars false
set_option linter.unusedSimpArgs false

namespace Torchdyn

open Spec

section loop

variable {m : Type → Type} [Monad m] [LawfulMonad m] [MonadExcept PyErr m] {K V : Type}

/-- The effects of the steps along a grid. -/
def tickGrid [Add K] [Sub K] (tick : K → K → m Unit) : K → List K → m Unit
  | _, [] => pure ()
  | τ, s :: rest => do tick τ (s - τ); tickGrid tick (τ + (s - τ)) rest

theorem fixedLoop_ticks [Add K] [Sub K] (isclose : K → K → Bool) (step : V → K → K → m (StepOut V))
    (tick : K → K → m Unit) (φ : V → K → K → V) (P : K → K → Prop)
    (hstep : ∀ x t dt, P t dt → ∃ k e, step x t dt = (do tick t dt; pure (.three k (φ x t dt) e)))
    (saveAt : List K) (rest : List K) :
    ∀ (pre : List K) (t₀ t dt : K) (x : V) (sol : List V) (fuel : Nat),
      rest.length ≤ fuel → (∀ t' ∈ rest.head?, dt = t' - t) →
      ((clockTimes t rest).zip rest).Forall (fun p => P p.1 (p.2 - p.1)) →
      fixedLoop isclose step (pre ++ t₀ :: rest) saveAt fuel (pre.length + 1) t dt x sol =
        (do tickGrid tick t rest
            pure (sol ++ collect (fun t => decide (closeCount isclose t saveAt ≠ 0))
              (clockTimes t rest).tail (clockStates φ t x rest).tail)) := by
  induction rest with
  | nil =>
    intro pre t₀ t dt x sol fuel _ _ _
    cases fuel with
    | zero => simp [fixedLoop, tickGrid, collect, clockTimes]
    | succ fuel => simp [fixedLoop, tickGrid, collect, clockTimes]
  | cons t' rest ih =>
    intro pre t₀ t dt x sol fuel hfuel hdt hP
    cases fuel with
    | zero => simp at hfuel
    | succ fuel =>
      have hd : dt = t' - t := hdt t' (by simp)
      have hP' : P t (t' - t) ∧ ((clockTimes (t + (t' - t)) rest).zip rest).Forall
          (fun p => P p.1 (p.2 - p.1)) := by
        simpa only [clockTimes, List.zip_cons_cons, List.forall_cons] using hP
      obtain ⟨k, e, hs⟩ := hstep x t dt (by rw [hd]; exact hP'.1)
      have hcond : pre.length + 1 ≤ (pre ++ t₀ :: t' :: rest).length - 1 := by simp
      rw [fixedLoop, if_pos hcond, hs]
      subst hd
      simp only [bind_assoc, pure_bind, StepOut.unpack3, tickGrid, List.length_cons]
      congr 1
      funext _
      simp only [clockTimes, clockStates, List.tail_cons]
      have hP2 := hP'.2
      generalize t + (t' - t) = τ at hP2 ⊢
      generalize φ x t (t' - t) = y
      have key : ∀ dt', (∀ t'' ∈ rest.head?, dt' = t'' - τ) → ∀ sol',
          fixedLoop isclose step (pre ++ t₀ :: t' :: rest) saveAt fuel (pre.length + 1 + 1) τ dt' y
            sol' =
          (do tickGrid tick τ rest
              pure (sol' ++ collect (fun t => decide (closeCount isclose t saveAt ≠ 0))
                (clockTimes τ rest).tail (clockStates φ τ y rest).tail)) := by
        intro dt' hdt' sol'
        have := ih (pre ++ [t₀]) t' τ dt' y sol' fuel (by simpa using hfuel) hdt' hP2
        simpa using this
      have hcol : (if closeCount isclose τ saveAt ≠ 0 then sol ++ [y] else sol) ++
            collect (fun t => decide (closeCount isclose t saveAt ≠ 0)) (clockTimes τ rest).tail
              (clockStates φ τ y rest).tail =
          sol ++ collect (fun t => decide (closeCount isclose t saveAt ≠ 0)) (clockTimes τ rest)
              (clockStates φ τ y rest) := by
        rw [clockTimes_cons τ rest, clockStates_cons φ τ y rest]
        by_cases hk : closeCount isclose τ saveAt = 0 <;> simp [collect, hk]
      cases rest with
      | nil =>
        have hlt : ¬ pre.length + 1 < (pre ++ [t₀, t']).length - 1 := by simp
        rw [if_neg hlt, key _ (by simp), hcol]
      | cons t'' rest =>
        have hlt : pre.length + 1 < (pre ++ t₀ :: t' :: t'' :: rest).length - 1 := by simp
        have hget : (getItem (pre ++ t₀ :: t' :: t'' :: rest) (pre.length + 1 + 1) : m K) = pure t'' := by
          have : (pre ++ t₀ :: t' :: t'' :: rest)[pre.length + 1 + 1]? = some t'' := by
            rw [List.getElem?_append_right (by omega)]
            have : pre.length + 1 + 1 - pre.length = 2 := by omega
            rw [this]; rfl
          simp [getItem, this]
        rw [if_pos hlt, hget]
        simp only [pure_bind]
        rw [key _ (by simp), hcol]

end loop

section whole

variable {m : Type → Type} [Monad m] [LawfulMonad m] [MonadExcept PyErr m] {K V : Type}
  [Field K] [LinearOrder K] [IsStrictOrderedRing K]

/-- Every step of the grid satisfies `P time step_size`. -/
def StepsSat (P : K → K → Prop) : List K → Prop
  | [] => True
  | [_] => True
  | t :: t' :: rest => P t (t' - t) ∧ StepsSat P (t' :: rest)

theorem stepsSat_clock {P : K → K → Prop} (t : K) (rest : List K) (h : StepsSat P (t :: rest)) :
    ((clockTimes t rest).zip rest).Forall (fun p => P p.1 (p.2 - p.1)) := by
  induction rest generalizing t with
  | nil => exact trivial
  | cons s rest ih =>
    rw [clockTimes, List.zip_cons_cons, List.forall_cons]
    exact ⟨h.1, by rw [add_sub_cancel]; exact ih s h.2⟩

/-- `_fixed_sdeint` with the default save points, for any grid. -/
theorem fixedSdeint_default (step : V → K → K → m (StepOut V)) (tick : K → K → m Unit)
    (φ : V → K → K → V) (P : K → K → Prop)
    (hstep : ∀ x t dt, P t dt → ∃ k e, step x t dt = (do tick t dt; pure (.three k (φ x t dt) e)))
    (x : V) (t0 t1 : K) (rest : List K) (hP : StepsSat P (t0 :: t1 :: rest)) :
    fixedSdeint torchIsclose step x (t0 :: t1 :: rest) (t0 :: t1 :: rest) =
      (do tickGrid tick t0 (t1 :: rest)
          pure (t0 :: t1 :: rest, gridStates φ x (t0 :: t1 :: rest))) := by
  have hall : ∀ t ∈ t0 :: t1 :: rest,
      closeCount torchIsclose t (t0 :: t1 :: rest) ≠ 0 := fun t ht =>
    closeCount_ne_zero.2 ⟨t, ht, torchIsclose_self t⟩
  have g0 : (getItem (t0 :: t1 :: rest) 0 : m K) = pure t0 := rfl
  have g1 : (getItem (t0 :: t1 :: rest) 1 : m K) = pure t1 := rfl
  simp only [fixedSdeint]
  rw [g0, g1]
  simp only [pure_bind]
  have := fixedLoop_ticks torchIsclose step tick φ P hstep (t0 :: t1 :: rest) (t1 :: rest) [] t0 t0
    (t1 - t0) x [x] (t0 :: t1 :: rest).length (by simp) (by simp) (stepsSat_clock _ _ hP)
  simp only [List.nil_append, List.length_nil, zero_add] at this
  rw [if_pos (hall t0 (by simp)), this, clockTimes_eq, clockStates_eq]
  simp only [bind_assoc, pure_bind]
  congr 1
  funext _
  rw [collect_all]
  · simp [gridStates, getItem]
  · intro t ht
    simp only [decide_eq_true_eq]
    exact hall t (by simpa using Or.inr (by simpa using ht))
  · simp [gridStates, gridStates_length]

end whole

end Torchdyn
