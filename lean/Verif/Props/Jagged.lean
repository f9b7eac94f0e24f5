import Verif.Proofs.Shooting
import Verif.Proofs.FixedOdeint

/-!
Property C42: `_jagged_fixed_odeint`.
-/

set_option linter.unusedSectionVars false
set_option linter.unusedSimpArgs false

namespace Torchdyn

open Spec

variable {K V : Type} [Field K] [LinearOrder K] [IsStrictOrderedRing K]

/-- **C42 (refutation for the built-in solvers).** With any solver whose step returns `None` as third
entry of a 3-tuple (all the built-in fixed-step solvers), on any collection of grids one of which is not
degenerate, the call raises `TypeError`: the loop takes the third entry for the state. -/
theorem C42_third_entry_refuted {s : ℕ}
    (step : (Fin s → V) → (Fin s → K) → (Fin s → K) → Except PyErr (StepOut (Fin s → V)))
    (hstep : ∀ x t dt, ∃ k y, step x t dt = .ok (.three k y none)) (x : Fin s → V)
    (tSpan : Fin s → List K) (h2 : ∀ n, 2 ≤ (tSpan n).length)
    (n : Fin s) (a b : K) (ha : (tSpan n)[0]? = some a) (hb : (tSpan n).getLast? = some b)
    (hab : 1 / 10 ^ 6 < |a - b|) (fuel : ℕ) :
    jaggedFixedOdeint step (fuel + 1) x tSpan = .error .typeError := by
  have hs : s ≠ 0 := by
    rintro rfl
    exact n.elim0
  have hany : ¬ ((List.finRange s).any (fun n => decide ((tSpan n).length < 2)) = true) := by
    simp only [List.any_eq_true, decide_eq_true_eq, not_exists, not_and, not_lt]
    intro n _
    exact h2 n
  have hun : anyUnconverged (fun n => (tSpan n).getD 0 0) (fun n => (tSpan n).getLastD 0) = true := by
    simp only [anyUnconverged, List.any_eq_true, Bool.not_eq_true', decide_eq_false_iff_not, not_le]
    refine ⟨n, List.mem_finRange n, ?_⟩
    rw [List.getD_eq_getElem?_getD, ha, List.getLastD_eq_getLast?, hb]
    exact hab
  obtain ⟨k, y, hk⟩ := hstep x (fun n => (tSpan n).getD 0 0)
    (fun n => (tSpan n).getD 1 0 - (tSpan n).getD 0 0)
  simp only [jaggedFixedOdeint, if_neg hs, if_neg hany, jaggedLoop, hun, if_true, hk, bind, Except.bind,
    StepOut.unpack3, pure, Except.pure]
  rfl

/-- Non-vacuity: one step of `euler` for two sub-problems. -/
example : jaggedFixedOdeint (K := ℚ) (V := ℚ) (s := 2) (m := Except PyErr)
    (fun x _ dt => .ok (.three none (fun n => x n + dt n * x n) none)) 5 (fun _ => 1)
    (fun n => if n = 0 then [0, 1] else [0, 1, 2]) = .error .typeError :=
  C42_third_entry_refuted _ (fun _ _ _ => ⟨none, _, rfl⟩) _ _ (by decide) 0 0 1 rfl rfl (by norm_num) 4

/-! ### A solver that returns the state as third entry -/

/-- The times visited: the first two grid points, then the grid from the second point on again. -/
def visited (a b : K) (rest : List K) : ℕ → K
  | 0 => a
  | 1 => b
  | j + 2 => (a :: b :: rest)[j + 1]?.getD (visited a b rest (j + 1))

/-- The states along a sequence of times. -/
def along (φ : V → K → K → V) (x : V) (H : ℕ → K) : ℕ → V
  | 0 => x
  | j + 1 => φ (along φ x H j) (H j) (H (j + 1) - H j)

theorem along_shift (φ : V → K → K → V) (x : V) (H : ℕ → K) (j : ℕ) :
    along φ x H (j + 1) = along φ (φ x (H 0) (H 1 - H 0)) (fun j => H (j + 1)) j := by
  induction j with
  | zero => rfl
  | succ j ih => rw [along, ih]; rfl

theorem gridStates_along (φ : V → K → K → V) (x : V) (h : List K) (H : ℕ → K)
    (hH : ∀ m t, h[m]? = some t → t = H m) :
    gridStates φ x h = (List.range h.length).map (along φ x H) := by
  induction h generalizing x H with
  | nil => rfl
  | cons t ts ih =>
    cases ts with
    | nil => rfl
    | cons t' ts =>
      have e0 : t = H 0 := hH 0 t rfl
      have e1 : t' = H 1 := hH 1 t' rfl
      rw [gridStates, ih (φ x t (t' - t)) (fun j => H (j + 1)) (fun m s hs => hH (m + 1) s hs),
        List.length_cons (a := t), List.range_succ_eq_map, List.map_cons, List.map_map]
      congr 1
      apply List.map_congr_left
      intro j _
      rw [Function.comp, Nat.succ_eq_add_one, along_shift, e0, e1]

theorem visited_last {a b : K} {rest : List K} {T : K} (hT : (a :: b :: rest).getLast? = some T) (j : ℕ)
    (hj : rest.length + 2 ≤ j) : visited a b rest j = T := by
  induction j with
  | zero => omega
  | succ j ih =>
    cases j with
    | zero => omega
    | succ j =>
      rw [visited]
      rcases Nat.lt_or_ge (rest.length + 2) (j + 2) with h | h
      · rw [List.getElem?_eq_none (by simp; omega)]
        exact ih (by omega)
      · have : j + 1 = (a :: b :: rest).length - 1 := by simp; omega
        rw [this, ← List.getLast?_eq_getElem?, hT]
        rfl

theorem visited_mem {a b : K} {rest : List K} (j : ℕ) (hj : j + 1 < rest.length + 2) :
    visited a b rest j ∈ (a :: b :: rest).dropLast := by
  have key : ∀ i, i + 1 < rest.length + 2 → ∀ t, (a :: b :: rest)[i]? = some t →
      t ∈ (a :: b :: rest).dropLast := by
    intro i hi t ht
    apply List.mem_of_getElem? (i := i)
    rw [List.getElem?_dropLast, if_pos (by simp; omega), ht]
  match j, hj with
  | 0, hj => exact key 0 (by omega) a rfl
  | 1, hj => exact key 1 (by omega) b rfl
  | j + 2, hj =>
    have hlt : j + 1 < (a :: b :: rest).length := by simp; omega
    rw [visited, List.getElem?_eq_getElem hlt]
    exact key (j + 1) (by omega) _ (List.getElem?_eq_getElem hlt)

variable {s : ℕ} {step : (Fin s → V) → (Fin s → K) → (Fin s → K) → Except PyErr (StepOut (Fin s → V))}
  {φ : V → K → K → V}

theorem jaggedLoop_spec
    (hstep : ∀ x t dt, ∃ k y, step x t dt = .ok (.three k y (some (fun n => φ (x n) (t n) (dt n)))))
    (a b : Fin s → K) (rest : Fin s → List K) (T : Fin s → K) (x : Fin s → V) (d : ℕ) :
    ∀ j, (∃ j', j ≤ j' ∧ j' ≤ j + d ∧ anyUnconverged (fun n => visited (a n) (b n) (rest n) j') T = false) →
    ∃ jx, anyUnconverged (fun n => visited (a n) (b n) (rest n) jx) T = false ∧ ∀ fuel, d + 1 ≤ fuel →
      jaggedLoop step (fun n => a n :: b n :: rest n) T fuel j (fun n => visited (a n) (b n) (rest n) j)
        (fun n => visited (a n) (b n) (rest n) (j + 1) - visited (a n) (b n) (rest n) j)
        (fun n => along φ (x n) (visited (a n) (b n) (rest n)) j)
        (fun n => (List.range (j + 1)).map (along φ (x n) (visited (a n) (b n) (rest n)))) =
      .ok (some (fun n => (List.range (jx + 1)).map (along φ (x n) (visited (a n) (b n) (rest n))))) := by
  induction d with
  | zero =>
    rintro j ⟨j', h1, h2, h3⟩
    have : j' = j := by omega
    subst this
    refine ⟨j', h3, ?_⟩
    intro fuel hf
    obtain ⟨fuel, rfl⟩ : ∃ k, fuel = k + 1 := ⟨fuel - 1, by omega⟩
    rw [jaggedLoop, h3]
    rfl
  | succ d ih =>
    rintro j ⟨j', h1, h2, h3⟩
    by_cases hc : anyUnconverged (fun n => visited (a n) (b n) (rest n) j) T = true
    · have hne : j ≠ j' := by
        rintro rfl
        rw [h3] at hc
        cases hc
      obtain ⟨jx, hx, e⟩ := ih (j + 1) ⟨j', by omega, by omega, h3⟩
      refine ⟨jx, hx, ?_⟩
      intro fuel hf
      obtain ⟨fuel, rfl⟩ : ∃ k, fuel = k + 1 := ⟨fuel - 1, by omega⟩
      rw [jaggedLoop, if_pos hc, ← e fuel (by omega)]
      obtain ⟨k, y, hk⟩ := hstep (fun n => along φ (x n) (visited (a n) (b n) (rest n)) j)
        (fun n => visited (a n) (b n) (rest n) j)
        (fun n => visited (a n) (b n) (rest n) (j + 1) - visited (a n) (b n) (rest n) j)
      rw [hk]
      simp only [bind, Except.bind, StepOut.unpack3, pure, Except.pure]
      congr 1
      · funext n
        ring
      · funext n
        rw [visited]
        cases (a n :: b n :: rest n)[j + 1]? with
        | none => simp
        | some t => simp
      · funext n
        rw [List.range_succ (n := j + 1), List.map_append]
        rfl
    · refine ⟨j, by simpa using hc, ?_⟩
      intro fuel hf
      obtain ⟨fuel, rfl⟩ : ∃ k, fuel = k + 1 := ⟨fuel - 1, by omega⟩
      rw [jaggedLoop, if_neg hc]
      rfl

/-- **C42 (what the code computes when the third entry is the state).** For a solver whose step returns
the new state as third entry and treats the sub-problems independently, grids
`a n, b n, rest n` of at least two points whose earlier points are more than `1e-6` away from the last:
the call returns, and the solution of each sub-problem is the trajectory on the grid *with its second
point repeated*, cut to the length of the original grid. It is therefore the right one exactly for the
first two points; all later states are late by one.

Missing with respect to C42: agreement with the sequential solver for grids of three points or more
(`C42_repeated_point_refuted`), and the built-in solvers (`C42_third_entry_refuted`). -/
theorem C42_jagged_partial
    (hstep : ∀ x t dt, ∃ k y, step x t dt = .ok (.three k y (some (fun n => φ (x n) (t n) (dt n)))))
    (hs : s ≠ 0) (a b : Fin s → K) (rest : Fin s → List K) (x : Fin s → V)
    (hfar : ∀ n T, (a n :: b n :: rest n).getLast? = some T → ∀ t ∈ (a n :: b n :: rest n).dropLast,
      1 / 10 ^ 6 < |t - T|) :
    ∃ fuel0, ∀ fuel ≥ fuel0, jaggedFixedOdeint step fuel x (fun n => a n :: b n :: rest n) =
      .ok (some (fun n => (gridStates φ (x n) (a n :: b n :: b n :: rest n)).take
        (a n :: b n :: rest n).length)) := by
  have hany : ¬ ((List.finRange s).any (fun n => decide ((a n :: b n :: rest n).length < 2)) = true) := by
    simp
  set T : Fin s → K := fun n => (a n :: b n :: rest n).getLastD 0
  have hT : ∀ n, (a n :: b n :: rest n).getLast? = some (T n) := by
    intro n
    simp only [T, List.getLastD_eq_getLast?, List.getLast?_cons, Option.getD_some]
  obtain ⟨d, hd⟩ : ∃ d, ∀ n, (rest n).length + 2 ≤ d :=
    ⟨∑ n, ((rest n).length + 2), fun n => Finset.single_le_sum (f := fun n => (rest n).length + 2)
      (fun _ _ => Nat.zero_le _) (Finset.mem_univ n)⟩
  obtain ⟨jx, h1, h2⟩ := jaggedLoop_spec hstep a b rest T x d 0 ⟨d, by omega, by omega, by
    rw [anyUnconverged, List.any_eq_false]
    intro n _
    rw [visited_last (hT n) d (hd n)]
    simp⟩
  refine ⟨d + 1, ?_⟩
  intro fuel hf
  have hl := h2 fuel hf
  have hjx : ∀ n, (rest n).length + 2 ≤ jx + 1 := by
    intro n
    by_contra hlt
    rw [anyUnconverged, List.any_eq_false] at h1
    have h1' := h1 n (List.mem_finRange n)
    have := hfar n (T n) (hT n) _ (visited_mem (a := a n) (b := b n) (rest := rest n) jx (by omega))
    simp only [Bool.not_eq_true', decide_eq_false_iff_not, not_not] at h1'
    exact absurd h1' (not_le.2 this)
  simp only [jaggedFixedOdeint, if_neg hs, if_neg hany]
  have hl' : jaggedLoop step (fun n => a n :: b n :: rest n) T fuel 0 (fun n => (a n :: b n :: rest n).getD 0 0)
      (fun n => (a n :: b n :: rest n).getD 1 0 - (a n :: b n :: rest n).getD 0 0) x (fun n => [x n]) =
      .ok (some (fun n => (List.range (jx + 1)).map (along φ (x n) (visited (a n) (b n) (rest n))))) := hl
  rw [hl']
  simp only [bind, Except.bind, pure, Except.pure, Option.map_some]
  congr 2
  funext n
  rw [gridStates_along φ (x n) (a n :: b n :: b n :: rest n) (visited (a n) (b n) (rest n))]
  · rw [← List.map_take, ← List.map_take, List.take_range, List.take_range]
    congr 2
    have := hjx n
    simp
    omega
  · intro m t ht
    match m with
    | 0 => exact (Option.some.inj ht).symm
    | 1 => exact (Option.some.inj ht).symm
    | m + 2 =>
      have h' : (a n :: b n :: rest n)[m + 1]? = some t := ht
      rw [visited, h']
      rfl

/-- **C42 (two-point grids).** When every grid has two points, each sub-problem gets what the solver gives
for it alone. -/
theorem C42_two_points_partial
    (hstep : ∀ x t dt, ∃ k y, step x t dt = .ok (.three k y (some (fun n => φ (x n) (t n) (dt n)))))
    (hs : s ≠ 0) (a b : Fin s → K) (x : Fin s → V) (hfar : ∀ n, 1 / 10 ^ 6 < |a n - b n|) :
    ∃ fuel0, ∀ fuel ≥ fuel0, jaggedFixedOdeint step fuel x (fun n => [a n, b n]) =
      .ok (some (fun n => gridStates φ (x n) [a n, b n])) := by
  obtain ⟨fuel0, h⟩ := C42_jagged_partial hstep hs a b (fun _ => []) x (by
    intro n T hT t ht
    simp only [List.getLast?_cons_cons, List.getLast?_singleton, Option.some.injEq] at hT
    simp only [List.dropLast_cons_cons, List.dropLast_singleton, List.mem_singleton] at ht
    rw [ht, ← hT]
    exact hfar n)
  refine ⟨fuel0, fun fuel hf => ?_⟩
  rw [h fuel hf]
  rfl

/-- **C42 (refutation for solvers that return the state as third entry).** `x' = 1` by Euler on the single
grid `[0, 1, 2]`: the returned states are `0, 1, 1` instead of `0, 1, 2`. -/
theorem C42_repeated_point_refuted :
    (jaggedFixedOdeint (K := ℚ) (V := ℚ) (s := 1) (m := Except PyErr)
      (fun x _ dt => .ok (.three none x (some (fun n => x n + dt n * 1)))) 5 (fun _ => 0)
      (fun _ => [0, 1, 2])).toOption.map (fun r => r.map (fun f => f 0)) = some (some [0, 1, 1]) := by
  decide +kernel

/-- First grid points of the example below. -/
def exA (n : Fin 2) : ℚ := if n = 0 then 0 else 1

/-- Remaining grid points of the example below. -/
def exRest (n : Fin 2) : List ℚ := if n = 0 then [3, 4] else []

/-- Non-vacuity of `C42_jagged_partial`: two sub-problems, on the grids `[0, 2, 3, 4]` and `[1, 2]`. -/
example : ∃ fuel0, ∀ fuel ≥ fuel0, jaggedFixedOdeint (K := ℚ) (V := ℚ) (s := 2) (m := Except PyErr)
    (fun x _ dt => .ok (.three none x (some (fun n => x n + dt n * x n)))) fuel (fun _ => 1)
    (fun n => exA n :: 2 :: exRest n) =
    .ok (some (fun n => (gridStates (fun x _ dt => x + dt * x) 1 (exA n :: 2 :: 2 :: exRest n)).take
        (exA n :: 2 :: exRest n).length)) :=
  C42_jagged_partial (φ := fun x _ dt => x + dt * x) (fun _ _ _ => ⟨none, _, rfl⟩) (by decide)
    exA (fun _ => 2) exRest (fun _ => 1) (by
    intro n T hT t ht
    match n with
    | 0 =>
      have hT' : (4 : ℚ) = T := Option.some.inj hT
      subst hT'
      have ht' : t ∈ [(0 : ℚ), 2, 3] := ht
      simp only [List.mem_cons, List.not_mem_nil, or_false] at ht'
      rcases ht' with rfl | rfl | rfl <;> norm_num
    | 1 =>
      have hT' : (2 : ℚ) = T := Option.some.inj hT
      subst hT'
      have ht' : t ∈ [(1 : ℚ)] := ht
      simp only [List.mem_cons, List.not_mem_nil, or_false] at ht'
      subst ht'
      norm_num)

end Torchdyn
